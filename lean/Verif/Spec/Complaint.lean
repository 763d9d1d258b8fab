import Verif.Spec.Syntax
import Verif.Spec.Message
/-!
# What the parser complains about

A hext that consists of well-formed tags, braces, whitespace and comments is read once, from left to right, remembering what is open.
`verdict` is the first thing that is wrong with it.
-/

namespace Hext.Msg

open Syn

/-- What is open between two braces, or outside of all braces: the open tags as they are written, the innermost first, and whether
there is a complete rule outside of these. -/
structure Level where
  tags : List Str := []
  rule : Bool := false

inductive Reason
  /-- a closing tag, and the open tag that it should close -/
  | unexpectedTag (given : Str) (expected : Option Str)
  | noParent
  | noRules
  | notOpen
  | unclosed
  | missing (tag : Str)

/-- How an open tag is written in a message: names that Gumbo knows are normalized. -/
def shown (t : Str) : Str :=
  if t = lit "*" then lit "*"
  else match gumboTagEnum (cstr t) with
    | .unknown => t
    | k => k.normalizedName

/-- The message, up to the place. -/
def Reason.text : Reason → Str
  | unexpectedTag t none => lit "Unexpected closing tag '</" ++ t ++ lit ">' "
  | unexpectedTag t (some e) => lit "Unexpected closing tag '</" ++ t ++ lit ">', expected '</" ++ shown e ++ lit ">' "
  | noParent => lit "Nested rules must have a parent "
  | noRules => lit "Nested rules cannot be empty "
  | notOpen => lit "Closing nested rule without open "
  | unclosed => lit "Unclosed nested rule "
  | missing t => lit "Missing closing tag '</" ++ shown t ++ lit ">' "

/-- `</t>` closes `<e>`: a name that Gumbo knows may be written in several ways. -/
def fits (e t : Str) : Bool :=
  if e = lit "*" then t = lit "*"
  else match gumboTagEnum (cstr e) with
    | .unknown => t = e
    | k => t ≠ lit "*" ∧ gumboTagEnum (cstr t) = k

inductive Verdict
  | fine
  /-- `k` bytes are marked, the last one at `p` -/
  | says (r : Reason) (p k : Nat)
  /-- the open tag `h`, which begins at `p`, contains a number or a regular expression that is not valid -/
  | head (h : Head) (p : Nat)

/-- Read items that begin at position `p`; `top` is the innermost level, `below` are those around it.
`fin` is asked behind the last item. -/
def scan (fin : Level → List Level → Nat → Verdict) (rx : RxEngine) (f : Flags) (top : Level) (below : List Level) (p : Nat) :
    List Item → Verdict
  | [] => fin top below p
  | .space b :: is => scan fin rx f top below (p + (Item.space b).text.length) is
  | .comment s :: is => scan fin rx f top below (p + (Item.comment s).text.length) is
  | .start h closed :: is =>
    match h.meaning rx f with
    | none => .head h p
    | some (_, f) =>
      let top := if closed then { top with rule := top.rule || top.tags.isEmpty } else { top with tags := h.tag :: top.tags }
      scan fin rx f top below (p + (Item.start h closed).text.length) is
  | .stop t :: is =>
    match top.tags with
    | [] => .says (.unexpectedTag t none) (p + t.length + 1) (t.length + 2)
    | e :: ts =>
      if fits e t then scan fin rx f { tags := ts, rule := top.rule || ts.isEmpty } below (p + (Item.stop t).text.length) is
      else .says (.unexpectedTag t (some e)) (p + t.length + 1) (t.length + 2)
  | .lbrace :: is =>
    match top.tags with
    | [] => .says .noParent p 1
    | _ :: _ => scan fin rx f {} (top :: below) (p + 1) is
  | .rbrace :: is =>
    match top.tags, top.rule, below with
    | _ :: _, _, _ => .says .notOpen p 1
    | [], false, _ => .says .noRules p 1
    | [], true, [] => .says .notOpen p 1
    | [], true, l :: below => scan fin rx f l below (p + 1) is

/-- At the end of the input, at `p`, nothing may be open. -/
def atEnd (top : Level) (below : List Level) (p : Nat) : Verdict :=
  match below, top.tags with
  | [], [] => .fine
  | [], t :: _ => .says (.missing t) p 0
  | _ :: _, _ => .says .unclosed (p - 1) 1

/-- What is wrong with a hext. -/
def verdict (rx : RxEngine) (is : List Item) : Verdict := scan atEnd rx {} {} [] 0 is

/-- What is wrong with the items, whatever follows. -/
def fault (rx : RxEngine) (is : List Item) : Verdict := scan (fun _ _ _ => .fine) rx {} {} [] 0 is

/-- A byte with which an item can begin. -/
def CanBegin (b : Byte) : Prop := IsSpace b ∨ b ∈ lit "#<{}"

/-- How a byte that is not expected is called. -/
def called (charSigned : Bool) (b : Byte) : Str :=
  if b = 10 then lit "[newline]"
  else if b = 9 then lit "[tab]"
  else if b = 13 then lit "[carriage-return]"
  else if b = 32 then lit "[space]"
  else if b = 0 then lit "[nullbyte]"
  else if 33 ≤ b ∧ b ≤ 126 then [b]
  else if charSigned ∧ 128 ≤ b then lit "[ascii: -" ++ dec (256 - b.toNat) ++ lit "]"
  else lit "[ascii: " ++ dec b.toNat ++ lit "]"

/-- What the message about the byte at `p`, or about the end of the input, begins with. -/
def surprise (charSigned : Bool) (s : Str) (p : Nat) : Str :=
  match s[p]? with
  | none => lit "Premature termination "
  | some b => lit "Unexpected character '" ++ called charSigned b ++ lit "' "

end Hext.Msg
