import Verif.Model.FileRead
/-!
# Reading files to their ends
-/

namespace Hext.FileRead

/-- The file was read to its end: no error, and enough memory for its bytes. -/
def Source.Whole (s : Source) : Prop := s.failure = none ∧ ∀ k, s.room = some k → s.bytes.length ≤ k

/-- The file as if it ended where reading it stops. -/
def Source.cut (s : Source) : Source :=
  { bytes := match s.room with
      | none => s.bytes
      | some k => s.bytes.take k }

variable {σ : Type}

/-- The system in which each file ends where reading it stops. -/
def System.cut (S : System σ) : System σ where
  opens := fun path w =>
    match S.opens path w with
    | (.ok src, w) => (.ok src.cut, w)
    | (.error e, w) => (.error e, w)

/-- Each file that can be opened can be read to its end. -/
def System.Whole (S : System σ) : Prop := ∀ path w src w', S.opens path w = (.ok src, w') → src.Whole

/-- The surroundings in which each file that can be opened has all of its bytes. -/
def System.ideal (S : System σ) (W : Cli.World σ) : Cli.World σ :=
  { W with files := fun path w =>
      match S.opens path w with
      | (.ok src, w) => (.bytes src.bytes, w)
      | (.error e, w) => (.noOpen e, w) }

end Hext.FileRead
