import Verif.Tokens.Model

/-!
# Specification vocabulary for tokens
-/

namespace Verif.Tokens
open Verif Verif.History

/-- every circulating supply that can be read respects the declared cap -/
def CapRespected (v : View) : Prop :=
  ∀ id d limit s, v.data id = .ok (some d) → d.totalSupply = .fixed limit → v.supply id = .ok s → s ≤ limit

/-- net amount minted according to a list of reported operations -/
def netMinted (id : TokenId) : List Undo → Int
  | [] => 0
  | .mint i a :: us => (if i = id then (a : Int) else 0) + netMinted id us
  | .unmint i a :: us => (if i = id then -(a : Int) else 0) + netMinted id us
  | _ :: us => netMinted id us

/-- token an operation is about -/
def Op.token : Op → TokenId
  | .issue id _ => id
  | .mint id _ => id
  | .unmint id _ => id
  | .lock id => id
  | .freeze id _ => id
  | .unfreeze id => id
  | .changeAuthority id _ => id
  | .changeMetadataUri id _ => id

/-- no tokens at all -/
def emptyDB : DB := ⟨BMap.empty, BMap.empty⟩

/-- start of a history: fresh cache over `p`, nothing to undo -/
def start (p : View) : Cache × List Undo := (Cache.new p, [])

end Verif.Tokens
