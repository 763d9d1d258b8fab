import Verif.Model.StringUtil
/-!
# Model of the value tests and string pipes
libhext/src/{BeginsWith,Contains,ContainsWords,EndsWith,Equals,Regex,Negate}Test.cpp and
libhext/src/{String,Append,Case,CollapseWs,Prepend,Regex,RegexReplace,Trim}Pipe.cpp
-/

namespace Hext

/-- A `boost::regex`, identified by its source text and whether `boost::regex::icase` and
`boost::regex::collate` were given. RegexTest.h:57, RegexPipe.h:64, RegexReplacePipe.h:56, made in Parser.cpp:2023. -/
structure Regex where
  src : Str
  icase : Bool := false
  collate : Bool := false
  deriving DecidableEq, Repr

/-- Boost.Regex, kept abstract. `search r s`: `boost::regex_search`; the result lists the sub-matches
`mr[0], mr[1], ...` (a group that took no part is the empty string), `none` if nothing was found.
`replace r s t`: `boost::regex_replace(s, r, t)`.
`compile r`: `none` if constructing the regex succeeds, else the description (`boost::regex_traits`'s
`error_string`) of the `boost::regex_error` it throws. Simplification: searching never throws (Boost can throw for pathological
backtracking); searches that throw are in Model/Throwing.lean. Called in RegexTest.cpp:33, RegexPipe.cpp:29, RegexReplacePipe.cpp:29. -/
structure RxEngine where
  search : Regex → Str → Option (List Str)
  replace : Regex → Str → Str → Str
  compile : Regex → Option Str

/-- The concrete `ValueTest` classes. `negate none` is a `NegateTest` holding a null pointer.
ValueTest.h:37-52 and the headers of the classes. -/
inductive ValueTest
  | beginsWith (lit : Str)
  | contains (lit : Str)
  | containsWords (words : List Str)
  | endsWith (lit : Str)
  | equals (lit : Str)
  | regex (rx : Regex)
  | negateNull
  | negate (t : ValueTest)
  deriving DecidableEq, Repr

/-- `std::equal(first1, last1, first2)`: compares the whole first range with the start of the second;
reading past the end of the second range would be UB, reported as `none`. Called in EndsWithTest.cpp:39. -/
def stdEqual : Str → Str → Option Bool
  | [], _ => some true
  | _ :: _, [] => none
  | a :: as, b :: bs => if a == b then stdEqual as bs else some false

/-- `boost::trim_if(s, boost::is_any_of(chars))`: drop listed characters at both ends. Called in TrimPipe.cpp:30. -/
def trimAnyOf (chars s : Str) : Str :=
  ((s.dropWhile (chars.contains ·)).reverse.dropWhile (chars.contains ·)).reverse

/-- `boost::split(out, s, is_any_of(seps), token_compress_on)`: tokens between maximal runs of
separators; always at least one token. `cur` is the token being read. Called in ContainsWordsTest.cpp:30-31. -/
def splitCompress (seps : Str) (cur : Str) : Str → List Str
  | [] => [cur]
  | c :: s =>
    if seps.contains c then
      match s with
      | [] => [cur, []]
      | d :: _ =>
        -- skip the rest of the run
        if seps.contains d then splitCompress seps cur s
        else cur :: splitCompress seps [] s
    else splitCompress seps (cur ++ [c]) s

/-- `ContainsWordsTest(std::string words)`, ContainsWordsTest.cpp:27-35. -/
def mkContainsWords (words : Str) : ValueTest :=
  .containsWords (splitCompress [32] [] (trimAnyOf [32] words))

/-- `ValueTest::test(const char * subject)`; `none` is the null pointer, `some s` a C string with
contents `s` (without the terminating NUL).
BeginsWithTest.cpp:30-39, ContainsTest.cpp:28-35, ContainsWordsTest.cpp:42-54, EndsWithTest.cpp:29-40,
EqualsTest.cpp:28-31, RegexTest.cpp:28-34, NegateTest.cpp:42-48. -/
def ValueTest.test (rx : RxEngine) : ValueTest → Option Str → E Bool
  | .beginsWith _, none => pure false
  | .beginsWith l, some s =>
    -- 36-38: `lit_.size() <= length && lit_.compare(0, n, subject, n) == 0`
    pure (decide (l.length ≤ s.length) && (l == s.take l.length))
  | .contains _, none => pure false
  | .contains l, some s => pure (findFrom s l 0).isSome
  | .containsWords _, none => pure false
  | .containsWords ws, some s => pure (!ws.isEmpty && ws.all (containsWord s ·))
  | .endsWith _, none => pure false
  | .endsWith l, some s =>
    if l.length > s.length then pure false
    else match stdEqual l.reverse s.reverse with
      | some b => pure b
      | none => throw .ub
  | .equals _, none => pure false
  | .equals l, some s => pure (l == s)
  | .regex _, none => pure false
  | .regex r, some s => pure (rx.search r s).isSome
  | .negateNull, s => pure s.isNone
  | .negate t, s => do pure (!(← t.test rx s))

/-- The concrete `StringPipe` classes, without their `next_` pointer. StringPipe.h:40-77 and the headers of the classes. -/
inductive Transform
  | append (suffix : Str)
  | toLower
  | toUpper
  | collapseWs
  | prepend (pfx : Str)
  | regex (rx : Regex)
  | regexReplace (rx : Regex) (replacement : Str)
  | trim (anyOf : Str)
  deriving DecidableEq, Repr

/-- ASCII `std::tolower` on one byte ("C" locale). Called in CasePipe.cpp:31-33. -/
def toLowerB (c : Byte) : Byte := if 65 ≤ c && c ≤ 90 then c + 32 else c
/-- ASCII `std::toupper` on one byte ("C" locale). Called in CasePipe.cpp:31-33. -/
def toUpperB (c : Byte) : Byte := if 97 ≤ c && c ≤ 122 then c - 32 else c

/-- `StringPipe::transform`. AppendPipe.cpp:26-30, CasePipe.cpp:28-37, CollapseWsPipe.cpp:22-25,
PrependPipe.cpp:26-30, RegexPipe.cpp:26-37, RegexReplacePipe.cpp:27-30, TrimPipe.cpp:28-32.
`RegexPipe` hands `str.c_str()` to the engine, hence `cstr`. -/
def Transform.transform (rx : RxEngine) : Transform → Str → E Str
  | .append suffix, s => pure (s ++ suffix)
  | .toLower, s => pure (s.map toLowerB)
  | .toUpper, s => pure (s.map toUpperB)
  | .collapseWs, s => trimAndCollapseWs s
  | .prepend p, s => pure (p ++ s)
  | .regex r, s =>
    match rx.search r (cstr s) with
    | some mr => if mr.length > 1 then pure (mr.getD 1 []) else pure (mr.getD 0 [])
    | none => pure []
  | .regexReplace r t, s => pure (rx.replace r s t)
  | .trim chars, s => pure (trimAnyOf chars s)

/-- A `StringPipe` object with its `next_` chain: `last` has `next_ == nullptr`. StringPipe.h:77, StringPipe.cpp:47-64. -/
inductive Pipe
  | last (t : Transform)
  | cons (t : Transform) (next : Pipe)
  deriving DecidableEq, Repr

/-- `StringPipe::pipe`, StringPipe.cpp:47-55. -/
def Pipe.pipe (rx : RxEngine) : Pipe → Str → E Str
  | .last t, s => t.transform rx s
  | .cons t next, s => do
    let s ← t.transform rx s
    next.pipe rx s

/-- `StringPipe::append`, StringPipe.cpp:57-64 (for a non-null argument). -/
def Pipe.append : Pipe → Pipe → Pipe
  | .last t, p => .cons t p
  | .cons t next, p => .cons t (next.append p)

end Hext
