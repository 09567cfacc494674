/-!
The rolling filter: what a node remembers of the announcements it exchanged with a peer.

The single bloom filter comes from another crate (`probabilistic_collections`) and is not modelled bit by bit:
a filter holds the items inserted into it, it says yes to these, and to any other item it answers what it
likes (`fp`), depending on its random hash functions (numbered by `serial`) and on what it holds.
-/
namespace Verif.Rolling

/-- `BloomFilter` (utils/src/bloom_filters/bloom_filter.rs 22-59): the number of its hash functions and the
items inserted, the newest first. -/
structure Bloom (α : Type) where
  serial : Nat
  items : List α
deriving DecidableEq

/-- `BloomFilter::insert` (bloom_filter.rs 43-45). -/
def Bloom.insert {α : Type} (b : Bloom α) (x : α) : Bloom α := { b with items := x :: b.items }

/-- `BloomFilter::contains` (bloom_filter.rs 48-50); `fp` answers for the items that were not inserted. -/
def Bloom.contains {α : Type} [DecidableEq α] (fp : Nat → List α → α → Bool) (b : Bloom α) (x : α) : Bool :=
  decide (x ∈ b.items) || fp b.serial b.items x

/-- `CyclicArray` (utils/src/bloom_filters/rolling_bloom_filter/cyclic_array.rs 17-20). -/
structure Cyclic (β : Type) where
  list : List β
  current : Nat
deriving DecidableEq

/-- `CyclicArray::new` (cyclic_array.rs 23-28). -/
def Cyclic.new {β : Type} (l : List β) : Cyclic β := { list := l, current := l.length - 1 }

/-- A change through `CyclicArray::get_last_mut` (cyclic_array.rs 31-33). -/
def Cyclic.modifyLast {β : Type} (c : Cyclic β) (f : β → β) : Cyclic β :=
  { c with list := c.list.modify c.current f }

/-- `CyclicArray::push` (cyclic_array.rs 36-39). -/
def Cyclic.push {β : Type} (c : Cyclic β) (x : β) : Cyclic β :=
  let i := (c.current + 1) % c.list.length
  { list := c.list.set i x, current := i }

/-- `SUBFILTER_COUNT` (rolling_bloom_filter/mod.rs 29). -/
def subfilters : Nat := 3

/-- `RollingBloomFilter` (rolling_bloom_filter/mod.rs 44-56).  `next` numbers the filters made so far; the
probability kept in `fpp_subfilter` is left out, as probabilities are not modelled. -/
structure Filter (α : Type) where
  sub : Cyclic (Bloom α)
  count : Nat
  max : Nat
  next : Nat
deriving DecidableEq

/-- `RollingBloomFilter::new` (rolling_bloom_filter/mod.rs 65-89).  The assertion `size > 0` is a premise of the
theorems where it matters; the two sizes in use are constants. -/
def Filter.new (α : Type) (size : Nat) : Filter α :=
  { sub := Cyclic.new ((List.range subfilters).map (fun i => { serial := i, items := [] }))
    count := 0
    max := Max.max 1 ((size + 1) / (subfilters - 1))
    next := subfilters }

/-- `RollingBloomFilter::insert` (rolling_bloom_filter/mod.rs 92-108).  The debug assertion is left out. -/
def Filter.insert {α : Type} (f : Filter α) (x : α) : Filter α :=
  let f := { f with sub := f.sub.modifyLast (fun b => b.insert x), count := f.count + 1 }
  if f.count = f.max then
    { f with sub := f.sub.push { serial := f.next, items := [] }, count := 0, next := f.next + 1 }
  else f

/-- `RollingBloomFilter::contains` (rolling_bloom_filter/mod.rs 112-114). -/
def Filter.contains {α : Type} [DecidableEq α] (fp : Nat → List α → α → Bool) (f : Filter α) (x : α) : Bool :=
  f.sub.list.any (fun b => b.contains fp x)

/-- Insertion of a history of items, the oldest last. -/
def Filter.after {α : Type} (size : Nat) : List α → Filter α
  | [] => Filter.new α size
  | x :: h => (Filter.after size h).insert x

end Verif.Rolling
