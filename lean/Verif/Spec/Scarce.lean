import Verif.Model.Scarce
/-!
# What C94 is stated with
-/

namespace Hext.Scarce

/-- How an extraction ends. -/
inductive Ending
  /-- it returns a result -/
  | returns (res : List (List (Str × Str)))
  /-- it throws `MaxSearchError` -/
  | limit
  /-- it throws `std::bad_alloc` -/
  | badAlloc
  /-- `std::terminate` is called -/
  | terminates

/-- The outcome of `extract` (Model/Scarce.lean) that an ending stands for, if `left` requests for memory are left. -/
def Ending.outcome (left : Nat) : Ending → E (List (List (Str × Str)) × Nat)
  | .returns res => pure (res, left)
  | .limit => throw .maxSearch
  | .badAlloc => throw .thrown
  | .terminates => throw .assertFail

/-- The requests for memory that it takes to insert the entries of a result into its maps. -/
def entryRequests (c : Costs) (res : List (List (Str × Str))) : Nat := (res.map fun map => (map.map c.insert).sum).sum

end Hext.Scarce
