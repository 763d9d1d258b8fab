import Verif.Spec.Own
/-!
# Which options of regular expressions reach which others

The options of a `:type-matches` and those of a pipe apply to every regular expression behind it, up to the end of the
next attribute pattern. `spelledItems` writes all options that reach a regular expression on it.
-/

namespace Hext.Spelled

open Syn

/-- The options `c` come from the left, `r` gets them, and hands all of them on. -/
def regex (c : List Bool) (r : Rx) : Rx := { r with mods := c ++ r.mods }

def trait (c : List Bool) : Trait → Trait × List Bool
  | .typeMatches r => (.typeMatches (regex c r), c ++ r.mods)
  | t => (t, c)

def traits (c : List Bool) : List Trait → List Trait × List Bool
  | [] => ([], c)
  | t :: ts => ((trait c t).1 :: (traits (trait c t).2 ts).1, (traits (trait c t).2 ts).2)

def cond (c : List Bool) : Cond → Cond × List Bool
  | .trait t => (.trait (trait c t).1, (trait c t).2)
  | .not ts => (.not (traits c ts).1, (traits c ts).2)

def conds (c : List Bool) : List Cond → List Cond × List Bool
  | [] => ([], c)
  | t :: ts => ((cond c t).1 :: (conds (cond c t).2 ts).1, (conds (cond c t).2 ts).2)

def pipe (c : List Bool) : PipeS → PipeS × List Bool
  | .filter r => (.filter (regex c r), c ++ r.mods)
  | .replace r u v q => (.replace (regex c r) u v q, c ++ r.mods)
  | p => (p, c)

def pipes (c : List Bool) : List PipeS → List PipeS
  | [] => []
  | p :: ps => (pipe c p).1 :: pipes (pipe c p).2 ps

def test (c : List Bool) : Test → Test
  | .regex r => .regex (regex c r)
  | t => t

def pat (c : List Bool) : Pat → Pat
  | .capFn fn ps n => .capFn fn (pipes c ps) n
  | .capAttr a ps n o => .capAttr a (pipes c ps) n o
  | .testFn fn t neg => .testFn fn (test c t) neg
  | .testAttr a t neg => .testAttr a (test c t) neg
  | p => p

/-- Nothing is left behind a pattern. -/
def pats (c : List Bool) : List (Str × Pat) → List (Str × Pat) × List Bool
  | [] => ([], c)
  | p :: ps => ((p.1, pat c p.2) :: (pats [] ps).1, (pats [] ps).2)

def head (c : List Bool) (h : Head) : Head × List Bool :=
  ({ h with conds := (conds c h.conds).1, pats := (pats (conds c h.conds).2 h.pats).1 },
   (pats (conds c h.conds).2 h.pats).2)

def item (c : List Bool) : Item → Item × List Bool
  | .start h b => (.start (head c h).1 b, (head c h).2)
  | i => (i, c)

def items (c : List Bool) : List Item → List Item × List Bool
  | [] => ([], c)
  | i :: is => ((item c i).1 :: (items (item c i).2 is).1, (items (item c i).2 is).2)

end Hext.Spelled
