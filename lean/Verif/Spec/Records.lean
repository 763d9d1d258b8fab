import Verif.Spec.Paths
/-!
# Hexts without marks, as a scan

If no tag of a hext is marked with `?` or `+`, its result can be computed by a simple scan: tags next to each other are looked for
from left to right, each behind the one before; after the last one it starts again with the first.
-/

namespace Hext

/-- What a tag, with everything inside of it, finds at a place: nothing, or a list of names and values. -/
abbrev Field := Loc → Option (List (Str × Str))

/-- Look for the first place where the first field finds something, behind it for the first place where the second one does, and so
on. The values of all fields, and the places left. -/
def nextRecord : List Field → List Loc → Option (List (Str × Str) × List Loc)
  | [], ks => some ([], ks)
  | _ :: _, [] => none
  | f :: fs, k :: ks =>
    match f k with
    | none => nextRecord (f :: fs) ks
    | some vs => (nextRecord fs ks).map fun r => (vs ++ r.1, r.2)

def recordsN (fs : List Field) : Nat → List Loc → List (List (Str × Str))
  | 0, _ => []
  | m + 1, ks =>
    match nextRecord fs ks with
    | none => []
    | some (vs, rest) => vs :: recordsN fs m rest

/-- All records in a list of siblings, one behind the other. (There are not more records than siblings.) -/
def records (fs : List Field) (ks : List Loc) : List (List (Str × Str)) := recordsN fs ks.length ks

/-- All values of all records in several lists of siblings. There has to be at least one record. -/
def recordsIn (fs : List Field) (kss : List (List Loc)) : Option (List (Str × Str)) :=
  match kss.flatMap (records fs) with
  | [] => none
  | rs => some rs.flatten

/-- The same for several lists of fields, each of which needs a record. -/
def recordsInAll : List (List Field) → List (List Loc) → Option (List (Str × Str))
  | [], _ => some []
  | fs :: fss, kss =>
    match recordsIn fs kss, recordsInAll fss kss with
    | some vs, some ws => some (vs ++ ws)
    | _, _ => none

/-- What a tag finds at a place: first the values from the tags directly inside of it, then those from the tags in braces, then its
own ones. All of them have to be there. -/
def placeValues (own : Option (List (Str × Str))) (children : List Field) (braces : List (List Field)) : Field := fun x =>
  match own, (if children.isEmpty then some [] else recordsIn children [x.step false]), recordsInAll braces x.self.under with
  | some us, some vs, some ws => some (vs ++ ws ++ us)
  | _, _, _ => none

mutual
/-- The fields of a rule and the rules behind it. `val i x` is what the rule `i` itself captures at `x`, if its tag and conditions hold
there. -/
def Rule.fields (val : RuleInfo → Field) : Rule → List Field
  | .mk i c nx ns => (fun x => placeValues (val i x) (Rule.fieldsO val c) (Rule.fieldsL val ns) x) :: Rule.fieldsO val nx
def Rule.fieldsO (val : RuleInfo → Field) : Option Rule → List Field
  | none => []
  | some r => r.fields val
def Rule.fieldsL (val : RuleInfo → Field) : List Rule → List (List Field)
  | [] => []
  | r :: rs => r.fields val :: Rule.fieldsL val rs
end

end Hext
