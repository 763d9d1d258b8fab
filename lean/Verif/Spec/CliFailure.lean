import Verif.Spec.Cli
/-!
# Why the command line program fails, and what it then says
-/

namespace Hext.Cli

/-- The program is asked to work: it is given hexts, and HTML files unless it only checks the hexts. -/
structure Asked (o : Opts) : Prop where
  help : o.help = false
  version : o.version = false
  hexts : o.hext ≠ [] ∨ o.str ≠ []
  html : o.lint = true ∨ o.html ≠ []

/-- What is wrong with the arguments: the options cannot be read, there is no hext, or there is no HTML file. -/
inductive ArgumentFault : Except Str Opts → Str → Prop
  | options (what : Str) : ArgumentFault (.error what) what
  | noHext {o : Opts} : o.help = false → o.version = false → o.hext = [] → o.str = [] →
      ArgumentFault (.ok o) (lit "missing Hext input, use --hext/-x <file> or --str/-s <string>")
  | noHtml {o : Opts} : o.help = false → o.version = false → (o.hext ≠ [] ∨ o.str ≠ []) → o.lint = false → o.html = [] →
      ArgumentFault (.ok o) (lit "missing HTML input, use --html/-i <html-file>")

variable {σ : Type} (W : World σ)

/-- Why a file cannot be read. If there is no file "-", standard input is meant. -/
inductive Unreadable : Str → σ → Str → Prop
  | access {p w e w'} : p ≠ lit "-" → W.files p w = (.noOpen e, w') → Unreadable p w (lit "cannot access '" ++ p ++ lit "': " ++ e)
  | read {p w e w'} : W.files p w = (.noRead e, w') → Unreadable p w (lit "cannot read '" ++ p ++ lit "': " ++ e)
  | stdin {w e w1 what} : W.files (lit "-") w = (.noOpen e, w1) → Unreadable (lit "/dev/stdin") w1 what → Unreadable (lit "-") w what

/-- Why a hext is rejected: a mistake, which is said to be at `place`, or a number that `std::stoi` does not accept. -/
inductive Rejected (place : Str) (text : Str) : Str → Str → Prop
  | «syntax» {what} : parseHextC W.rx W.charSigned text = .error (.syntax what) → Rejected place text place what
  | number : parseHextC W.rx W.charSigned text = .error .outOfRange ∨ parseHextC W.rx W.charSigned text = .error .invalidArgument →
      Rejected place text (lit "Error") (lit "stoi")

/-- `hexts` are accepted. -/
def Accepted (hexts : List Str) (rules : List Rule) : Prop := hexts.map (parseHextC W.rx W.charSigned) = rules.map .ok

/-- `Failure o w out title what`: the program stops at the first thing that goes wrong. It has printed `out`, and the message has this
title and text. -/
inductive Failure (o : Opts) (w : σ) : Str → Str → Str → Prop
  /-- A hext file cannot be read. -/
  | hextFile {fs f gs hexts rules w1 what} : o.hext = fs ++ f :: gs → Reads W fs w hexts w1 → Accepted W hexts rules →
      Unreadable W f w1 what → Failure o w [] (lit "Error") what
  /-- A hext file is rejected. -/
  | hextText {fs f gs hexts rules w1 text w2 title what} : o.hext = fs ++ f :: gs → Reads W fs w hexts w1 → Accepted W hexts rules →
      Contents W f w1 text w2 → Rejected W (lit "Error in " ++ f) text title what → Failure o w [] title what
  /-- A hext string is rejected. -/
  | hextString {hexts rules w1 ss s ts title what} : Reads W o.hext w hexts w1 → o.str = ss ++ s :: ts →
      Accepted W (hexts ++ ss) rules → Rejected W (lit "Error in <hext-string>") s title what → Failure o w [] title what
  /-- An HTML file cannot be read. -/
  | htmlFile {hexts rules w1 fs f gs texts w2 what} : o.lint = false → Reads W o.hext w hexts w1 → Accepted W (hexts ++ o.str) rules →
      o.html = fs ++ f :: gs → Reads W fs w1 texts w2 → Unreadable W f w2 what → Failure o w [] (lit "Error") what
  /-- An extraction needs more searches than allowed. The results before it were printed. -/
  | limit {hexts rules w1 texts w2 before after} {p : Rule × Str} {results : List (List (List (Str × Str)))} :
      o.lint = false → Reads W o.hext w hexts w1 → Accepted W (hexts ++ o.str) rules → Reads W o.html w1 texts w2 →
      (rules.flatMap fun r => texts.map fun t => (r, t)) = before ++ p :: after →
      before.map (fun x => resultOf W o.maxSearches x.1 x.2) = results.map pure →
      resultOf W o.maxSearches p.1 p.2 = throw .maxSearch →
      Failure o w (results.flatMap (render W o)) (lit "Error") (lit "The allowed amount of searches was exhausted")

/-- The message: the program, the title and the text. On a terminal the first two are red. -/
def message (title what : Str) : Str :=
  if W.ttyErr then [27] ++ lit "[1;31m" ++ W.program ++ lit ": " ++ title ++ lit ": " ++ [27] ++ lit "[0m" ++ what ++ lit "\n"
  else W.program ++ lit ": " ++ title ++ lit ": " ++ what ++ lit "\n"

end Hext.Cli
