import Mathlib.Data.List.Lex
import Verif.Base.BMap
import Verif.Codec.Base

/-!
# Model of the storage layer: in-memory backend, transactions, typed maps
-/

namespace Verif.Store
open Verif Verif.Codec

/-- bytes are ordered as numbers -/
instance : LinearOrder UInt8 where
  le_refl := UInt8.le_refl
  le_trans _ _ _ := UInt8.le_trans
  lt_iff_le_not_ge a b := by
    simp only [UInt8.lt_iff_toNat_lt, UInt8.le_iff_toNat_le]
    omega
  le_antisymm _ _ := UInt8.le_antisymm
  le_total := UInt8.le_total
  toDecidableLE := inferInstance

/-- `Data = Vec<u8>` – storage/core/src/lib.rs 101; vectors are compared lexicographically -/
abbrev Data := Bytes

/-! ### The in-memory maps: storage/inmemory/src/lib.rs, storage/core/src/util.rs -/

/-- `BTreeMap::range(key..)`: the entries from `key` on, in order -/
def rangeFrom {V : Type} (m : BMap Data V) (key : Data) : List (Data × V) :=
  m.entries.filter fun e => decide (key ≤ e.1)

/-- what successive calls of `MapPrefixIter::next` return (storage/core/src/util.rs 46-69), as long as the underlying
range gives entries; `none` is returned for an entry without the prefix -/
def prefixPolls {V : Type} (m : BMap Data V) (pre : Data) : List (Option (Data × V)) :=
  (rangeFrom m pre).map fun e => if pre.isPrefixOf e.1 then some e else none

/-- what a consumer that stops at the first `None` gets -/
def untilNone {A : Type} : List (Option A) → List A
  | some a :: r => a :: untilNone r
  | _ => []

/-- `MapPrefixIter` consumed to its end -/
def prefixIter {V : Type} (m : BMap Data V) (pre : Data) : List (Data × V) := untilNone (prefixPolls m pre)

/-- `StorageMaps` – storage/inmemory/src/lib.rs 27: an array of maps, here a function of the index.  The index is below
the number of maps by construction of `DbMapId`. -/
abbrev Maps := Nat → BMap Data Data

/-- `get` – inmemory/src/lib.rs 30-32 -/
def Maps.get (db : Maps) (i : Nat) (key : Data) : Option Data := (db i).get key

/-- `prefix_iter` – 34-40 -/
def Maps.prefixIter (db : Maps) (i : Nat) (pre : Data) : List (Data × Data) := Store.prefixIter (db i) pre

/-- `greater_equal_iter` – 42-48 -/
def Maps.geIter (db : Maps) (i : Nat) (key : Data) : List (Data × Data) := rangeFrom (db i) key

/-- `put` – 52-55 -/
def Maps.put (db : Maps) (i : Nat) (key val : Data) : Maps := Function.update db i ((db i).insert key val)

/-- `del` – 57-60 -/
def Maps.del (db : Maps) (i : Nat) (key : Data) : Maps := Function.update db i ((db i).erase key)

/-! ### Transactions: storage/core/src/adaptor/locking.rs -/

/-- `TxRw` – 61-64: the database is locked, changes are kept aside -/
structure TxRw where
  db : Maps
  deltas : Nat → BMap Data (Option Data)

/-- `transaction_rw` – 185-190 -/
def TxRw.start (db : Maps) : TxRw := ⟨db, fun _ => BMap.empty⟩

/-- `update` – 67-70 -/
def TxRw.update (t : TxRw) (i : Nat) (key : Data) (val : Option Data) : TxRw :=
  { t with deltas := Function.update t.deltas i ((t.deltas i).insert key val) }

/-- `put` – 124-126 -/
def TxRw.put (t : TxRw) (i : Nat) (key val : Data) : TxRw := t.update i key (some val)

/-- `del` – 128-130 -/
def TxRw.del (t : TxRw) (i : Nat) (key : Data) : TxRw := t.update i key none

/-- `get` – 74-79 -/
def TxRw.get (t : TxRw) (i : Nat) (key : Data) : Option Data :=
  match (t.deltas i).get key with
  | none => t.db.get i key
  | some x => x

/-- `itertools::EitherOrBoth` -/
inductive Joined
  | left (e : Data × Data)
  | right (e : Data × Option Data)
  | both (e : Data × Data) (d : Data × Option Data)

/-- the step of `merge_join_by` for one entry of the left side -/
def joinGo (a : Data × Data) (f : List (Data × Option Data) → List Joined) : List (Data × Option Data) → List Joined
  | [] => .left a :: f []
  | b :: r =>
    if a.1 < b.1 then .left a :: f (b :: r)
    else if a.1 = b.1 then .both a b :: f r
    else .right b :: joinGo a f r

/-- `itertools::merge_join_by` with comparison of keys -/
def mergeJoin : List (Data × Data) → List (Data × Option Data) → List Joined
  | [], r => r.map .right
  | a :: l, r => joinGo a (mergeJoin l) r

/-- the `filter_map` of `merge_iterators` – 108-119 -/
def present : Joined → Option (Data × Data)
  | .left l => some l
  | .right (k, v) => v.map fun v => (k, v)
  | .both _ (k, v) => v.map fun v => (k, v)

/-- `merge_iterators` – 104-120 -/
def mergeIterators (l : List (Data × Data)) (r : List (Data × Option Data)) : List (Data × Data) :=
  (mergeJoin l r).filterMap present

/-- `prefix_iter` – 81-90 -/
def TxRw.prefixIter (t : TxRw) (i : Nat) (pre : Data) : List (Data × Data) :=
  mergeIterators (t.db.prefixIter i pre) (Store.prefixIter (t.deltas i) pre)

/-- `greater_equal_iter` – 92-101 -/
def TxRw.geIter (t : TxRw) (i : Nat) (key : Data) : List (Data × Data) :=
  mergeIterators (t.db.geIter i key) (rangeFrom (t.deltas i) key)

/-- one entry in `commit` – 137-140 -/
def commitEntry (i : Nat) (db : Maps) (e : Data × Option Data) : Maps :=
  match e.2 with
  | none => db.del i e.1
  | some v => db.put i e.1 v

/-- `commit` – 134-144; `n` is the number of maps -/
def TxRw.commit (n : Nat) (t : TxRw) : Maps :=
  (List.range n).foldl (fun db i => (t.deltas i).entries.foldl (commitEntry i) db) t.db

/-- the lock around the database (147-190) and the transactions that hold it: `RwLock` lets in any number of readers or
one writer.  A thread that would have to wait is not modelled; the call is refused. -/
structure Shared where
  db : Maps
  readers : Nat
  writer : Option TxRw

/-- calls on the storage -/
inductive Call
  | openRo
  | closeRo
  | openRw
  | put (i : Nat) (key val : Data)
  | del (i : Nat) (key : Data)
  | commit
  | abort

/-- `n` is the number of maps.  Read-only transactions: 31-57, 175-177, close by dropping the guard; read-write
transactions: 179-190, `abort` drops the changes (storage/src/database/mod.rs 189-191) -/
def Shared.call (n : Nat) (s : Shared) : Call → Option Shared
  | .openRo => if s.writer.isSome then none else some { s with readers := s.readers + 1 }
  | .closeRo => if s.readers = 0 then none else some { s with readers := s.readers - 1 }
  | .openRw => if s.writer.isSome || s.readers ≠ 0 then none else some { s with writer := some (.start s.db) }
  | .put i k v => s.writer.map fun t => { s with writer := some (t.put i k v) }
  | .del i k => s.writer.map fun t => { s with writer := some (t.del i k) }
  | .commit => s.writer.map fun t => { s with db := t.commit n, writer := none }
  | .abort => s.writer.map fun _ => { s with writer := none }

/-- `Storage::new`: no entries – inmemory/src/lib.rs 66-72 -/
def Shared.new : Shared := ⟨fun _ => BMap.empty, 0, none⟩

/-! ### Typed maps: storage/src/database -/

/-- `Encoded::decode` – serialization/src/encoded.rs 59-61; `none` is a panic -/
def decodeAll {A : Type} (c : Codec A) (bs : Data) : Option A := c.decodeAll bs

/-- `MapRef::get` and decoding of the value – database/mod.rs 218-222, internal.rs 45-51; the outer `none` is a panic -/
def typedGet {K A : Type} (ck : Codec K) (cv : Codec A) (read : Data → Option Data) (k : K) : Option (Option A) :=
  match read (ck.enc k) with
  | none => some none
  | some bs => (decodeAll cv bs).map some

/-- decoding the entries of an iterator: `prefix_iter_decoded`, `greater_equal_iter_decoded` – database/mod.rs
247-258, 283-294, internal.rs 64-77; `none` is a panic -/
def typedIter {K A : Type} (ck : Codec K) (cv : Codec A) (es : List (Data × Data)) : Option (List (K × A)) :=
  es.mapM fun e => do
    let k ← decodeAll ck e.1
    let v ← decodeAll cv e.2
    pure (k, v)

/-- `u16_to_array_be`, `u32_to_array_be`, `u64_to_array_be` – common/src/uint/endian.rs; `n` bytes, most significant
first -/
def beBytes (n v : Nat) : Bytes := (leBytes n v).reverse

/-- `OrderPreservingValue` – storage/src/order_preserving_value.rs 49-70 -/
def orderPreserving (n : Nat) : Codec Nat where
  ok v := v < 256 ^ n
  enc v := beBytes n v
  dec bs := (takeN n bs).map fun p => (leNat p.1.reverse, p.2)

/-- `dump_storage` – storage/src/database/raw.rs 131-140, and `new_from_dump` – storage/src/database/mod.rs 78-92 -/
def dump (n : Nat) (db : Maps) : List (Nat × List (Data × Data)) :=
  (List.range n).map fun i => (i, db.prefixIter i [])

/-- `new_from_dump`: the entries of the dump are put in one transaction, which is committed – mod.rs 78-92 -/
def fromDump (n : Nat) (d : List (Nat × List (Data × Data))) : Maps :=
  (d.foldl (fun t p => p.2.foldl (fun t e => t.put p.1 e.1 e.2) t) (TxRw.start fun _ => BMap.empty)).commit n

end Verif.Store
