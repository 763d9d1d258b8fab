import Verif.Model.Cli
/-!
# Model of the options of htmlext
`ProgramOptions::ProgramOptions` and `ProgramOptions::store_and_validate_or_throw`, htmlext/htmlext/ProgramOptions.cpp:30-104, on
the arguments of `main`.

`boost::program_options` is not part of the repository. Its functions `cmdline::run`, `parse_long_option`, `parse_short_option`,
`parse_terminator`, `finish_option`, `options_description::find_nothrow` and `store` are modelled for the default style
(`unix_style`) and for options that take no value or exactly one value, which are the only ones in use. The text of its messages is
left open.
-/

namespace Hext.Cli

/-- The options, ProgramOptions.cpp:36-59. -/
inductive Key
  | hext | html | str | compact | pretty | array | filter | lint | maxSearches | help | version
  deriving DecidableEq, Repr

/-- The long name of an option, ProgramOptions.cpp:36-59. -/
def Key.long : Key → Str
  | .hext => lit "hext"
  | .html => lit "html"
  | .str => lit "str"
  | .compact => lit "compact"
  | .pretty => lit "pretty"
  | .array => lit "array"
  | .filter => lit "filter"
  | .lint => lit "lint"
  | .maxSearches => lit "max-searches"
  | .help => lit "help"
  | .version => lit "version"

/-- The letter of an option, ProgramOptions.cpp:36-59. -/
def Key.letter : Key → Byte
  | .hext => 120
  | .html => 105
  | .str => 115
  | .compact => 99
  | .pretty => 112
  | .array => 97
  | .filter => 102
  | .lint => 108
  | .maxSearches => 109
  | .help => 104
  | .version => 86

/-- The options that are declared with `po::value`: `min_tokens() == max_tokens() == 1`. The others have 0 for both.
ProgramOptions.cpp:36-59. -/
def Key.takes : Key → Bool
  | .hext | .html | .str | .filter | .maxSearches => true
  | .compact | .pretty | .array | .lint | .help | .version => false

/-- `desc_`, in the order of ProgramOptions.cpp:36-59. -/
def Key.all : List Key := [.hext, .html, .str, .compact, .pretty, .array, .filter, .lint, .maxSearches, .help, .version]

/-- Kinds of `boost::program_options::error`. Called from ProgramOptions.cpp:77-101. -/
inductive PoErr
  | ambiguousOption
  | unknownOption
  | emptyAdjacentParameter
  | missingParameter
  | extraParameter
  | multipleOccurrences
  | invalidOptionValue
  deriving DecidableEq, Repr

/-- `option_description::match` with `full_match`: the long name, or a dash and the letter. Called from ProgramOptions.cpp:77-101. -/
def Key.fullMatch (name : Str) (k : Key) : Bool := k.long == name || [45, k.letter] == name

/-- `option_description::match` with `approximate_match`: `long_name.find(name) == 0`. Called from ProgramOptions.cpp:77-101. -/
def Key.approxMatch (name : Str) (k : Key) : Bool := name.isPrefixOf k.long && !k.fullMatch name

/-- `options_description::find_nothrow`. Called from ProgramOptions.cpp:77-101. -/
def findOption (name : Str) (approx : Bool) : Except PoErr (Option Key) :=
  match Key.all.filter (Key.fullMatch name) with
  | _ :: _ :: _ => throw .ambiguousOption
  | [k] => pure (some k)
  | [] =>
    if approx then
      match Key.all.filter (Key.approxMatch name) with
      | _ :: _ :: _ => throw .ambiguousOption
      | [k] => pure (some k)
      | [] => pure none
    else pure none

/-- `boost::program_options::option` as the style parsers make it: the name, and the adjacent value.
Called from ProgramOptions.cpp:77-101. -/
structure RawOption where
  name : Str
  value : Option Str
  deriving DecidableEq

/-- `cmdline::parse_long_option` on one token. `none`: the token has another syntax. Called from ProgramOptions.cpp:77-101. -/
def parseLong (tok : Str) : Except PoErr (Option RawOption) :=
  match tok with
  | 45 :: 45 :: c :: rest =>
    let body := c :: rest
    let name := body.takeWhile (· != 61)
    match body.drop name.length with
    | [] => pure (some ⟨name, none⟩)
    | [_] => throw .emptyAdjacentParameter
    | _ :: adjacent => pure (some ⟨name, some adjacent⟩)
  | _ => pure none

/-- The loop of `cmdline::parse_short_option`, with the letter that is next and the bytes after it.
Called from ProgramOptions.cpp:77-101. -/
def shortLoop (c : Byte) : Str → Except PoErr (List RawOption)
  | [] => pure [⟨[45, c], none⟩]
  | a :: adjacent => do
    match ← findOption [45, c] false with
    | some k =>
      if k.takes then pure [⟨[45, c], some (a :: adjacent)⟩]
      else do
        let os ← shortLoop a adjacent
        pure (⟨[45, c], none⟩ :: os)
    | none => pure [⟨[45, c], some (a :: adjacent)⟩]

/-- `cmdline::parse_short_option` on one token. `[]`: the token has another syntax. Called from ProgramOptions.cpp:77-101. -/
def parseShort (tok : Str) : Except PoErr (List RawOption) :=
  match tok with
  | 45 :: c :: adjacent => if c = 45 then pure [] else shortLoop c adjacent
  | _ => pure []

/-- The style parsers for options one after the other: `[]` if none of them makes an option of the token.
Called from ProgramOptions.cpp:77-101. -/
def parseToken (tok : Str) : Except PoErr (List RawOption) := do
  match ← parseLong tok with
  | some o => pure [o]
  | none => parseShort tok

/-- An option or a positional argument with its value. `none` stands for an empty `string_key`. Called from ProgramOptions.cpp:77-101. -/
structure Parsed where
  key : Option Key
  value : Option Str
  deriving DecidableEq

/-- `cmdline::finish_option` with the tokens that follow: the option, and the tokens that are left.
Called from ProgramOptions.cpp:77-101. -/
def finishOption (o : RawOption) (others : List Str) : Except PoErr (Parsed × List Str) :=
  if o.name.isEmpty then pure (⟨none, o.value⟩, others)
  else do
    match ← findOption o.name true with
    | none => throw .unknownOption
    | some k =>
      match o.value with
      | some v => if k.takes then pure (⟨some k, some v⟩, others) else throw .extraParameter
      | none =>
        if k.takes then
          match others with
          | [] => throw .missingParameter
          | v :: others => do
            let followed ← parseToken v
            if followed.isEmpty then pure (⟨some k, some v⟩, others)
            else
              match ← findOption v true with
              | some _ => throw .missingParameter
              | none => pure (⟨some k, some v⟩, others)
        else pure (⟨some k, none⟩, others)

/-- The options that one token makes: all but the last are finished without further tokens. Called from ProgramOptions.cpp:77-101. -/
def finishAll : List RawOption → List Str → Except PoErr (List Parsed × List Str)
  | [], others => pure ([], others)
  | [o], others => do
    let (p, others) ← finishOption o others
    pure ([p], others)
  | o :: os, others => do
    let (p, _) ← finishOption o []
    let (ps, others) ← finishAll os others
    pure (p :: ps, others)

theorem finishOption_length {o : RawOption} {others : List Str} {p : Parsed} {rest : List Str}
    (h : finishOption o others = .ok (p, rest)) : rest.length ≤ others.length := by
  unfold finishOption at h
  simp only [bind, Except.bind, pure, Except.pure, throw, throwThe, MonadExceptOf.throw] at h
  repeat' split at h
  all_goals first
    | (cases h; done)
    | (simp only [Except.ok.injEq, Prod.mk.injEq] at h; obtain ⟨-, rfl⟩ := h; simp)

theorem finishAll_length : ∀ {os : List RawOption} {others : List Str} {ps : List Parsed} {rest : List Str},
    finishAll os others = .ok (ps, rest) → rest.length ≤ others.length
  | [], others, ps, rest, h => by
    simp only [finishAll, pure, Except.pure, Except.ok.injEq, Prod.mk.injEq] at h
    rw [h.2]; exact Nat.le_refl _
  | [o], others, ps, rest, h => by
    simp only [finishAll, bind, Except.bind, pure, Except.pure] at h
    split at h
    · cases h
    · rename_i x hx
      simp only [Except.ok.injEq, Prod.mk.injEq] at h
      rw [← h.2]; exact finishOption_length hx
  | o :: o' :: os, others, ps, rest, h => by
    simp only [finishAll, bind, Except.bind, pure, Except.pure] at h
    split at h
    · cases h
    · split at h
      · cases h
      · rename_i x hx
        simp only [Except.ok.injEq, Prod.mk.injEq] at h
        rw [← h.2]; exact finishAll_length hx

/-- The loop of `cmdline::run`. A token that no style parser takes is a positional argument, and so is every token after `--`.
Called from ProgramOptions.cpp:77-101. -/
def runParser (args : List Str) : Except PoErr (List Parsed) :=
  match args with
  | [] => pure []
  | tok :: rest =>
    match parseToken tok with
    | .error e => throw e
    | .ok [] =>
      if tok = [45, 45] then pure (rest.map fun t => ⟨none, some t⟩)
      else do
        let ps ← runParser rest
        pure (⟨none, some tok⟩ :: ps)
    | .ok (o :: os) =>
      match _h : finishAll (o :: os) rest with
      | .error e => throw e
      | .ok (ps, rest') => do
        let qs ← runParser rest'
        pure (ps ++ qs)
termination_by args.length
decreasing_by
  · simp
  · have := finishAll_length _h
    simp; omega

/-- The end of `cmdline::run` with the positional options of ProgramOptions.cpp:83-85: the first positional argument is `hext`, the
others are `html`. -/
def assignPositions : Bool → List Parsed → List Parsed
  | _, [] => []
  | first, p :: ps =>
    match p.key with
    | some _ => p :: assignPositions first ps
    | none => ⟨some (if first then .hext else .html), p.value⟩ :: assignPositions false ps

/-- `boost::lexical_cast<std::uint64_t>`: decimal digits after at most one sign; a minus negates modulo 2^64.
Called from ProgramOptions.cpp:77-101. -/
def lexicalCast (s : Str) : Option UInt64 :=
  let digits := match s with
    | 43 :: r => r
    | 45 :: r => r
    | r => r
  let n := digits.foldl (fun n d => n * 10 + (d.toNat - 48)) 0
  if digits.isEmpty || digits.any (fun b => b < 48 || 57 < b) || 18446744073709551615 < n then none
  else if s.head? = some 45 then some (0 - UInt64.ofNat n)
  else some (UInt64.ofNat n)

/-- What `store` has written to `vm_` without the defaults. Called from ProgramOptions.cpp:77-101. -/
structure Stored where
  opts : Opts := {}
  /-- The options with `single` values that have been stored. -/
  seen : List Key := []

/-- `check_first_occurrence`. Called from ProgramOptions.cpp:77-101. -/
def firstOccurrence (k : Key) (s : Stored) : Except PoErr Unit :=
  if s.seen.contains k then throw .multipleOccurrences else pure ()

/-- One step of `boost::program_options::store`, with the types of ProgramOptions.cpp:36-59. The value that is missing in the
last case for an option that takes one never is. -/
def storeOne (s : Stored) (p : Parsed) : Except PoErr Stored :=
  match p.key, p.value with
  | none, _ => pure s
  | some .hext, some v => pure { s with opts := { s.opts with hext := s.opts.hext ++ [v] } }
  | some .html, some v => pure { s with opts := { s.opts with html := s.opts.html ++ [v] } }
  | some .str, some v => pure { s with opts := { s.opts with str := s.opts.str ++ [v] } }
  | some .filter, some v => do
    firstOccurrence .filter s
    pure ⟨{ s.opts with filter := some v }, .filter :: s.seen⟩
  | some .maxSearches, some v => do
    firstOccurrence .maxSearches s
    match lexicalCast v with
    | none => throw .invalidOptionValue
    | some n => pure ⟨{ s.opts with maxSearches := n }, .maxSearches :: s.seen⟩
  | some .compact, _ => do
    firstOccurrence .compact s
    pure ⟨{ s.opts with compact := true }, .compact :: s.seen⟩
  | some .pretty, _ => do
    firstOccurrence .pretty s
    pure ⟨{ s.opts with pretty := true }, .pretty :: s.seen⟩
  | some .array, _ => do
    firstOccurrence .array s
    pure ⟨{ s.opts with array := true }, .array :: s.seen⟩
  | some .lint, _ => do
    firstOccurrence .lint s
    pure ⟨{ s.opts with lint := true }, .lint :: s.seen⟩
  | some .help, _ => do
    firstOccurrence .help s
    pure ⟨{ s.opts with help := true }, .help :: s.seen⟩
  | some .version, _ => do
    firstOccurrence .version s
    pure ⟨{ s.opts with version := true }, .version :: s.seen⟩
  | some _, none => throw .missingParameter

/-- `boost::program_options::store`. Called from ProgramOptions.cpp:77-101. -/
def storeAll (s : Stored) : List Parsed → Except PoErr Stored
  | [] => pure s
  | p :: ps => do
    let s ← storeOne s p
    storeAll s ps

/-- `ProgramOptions::store_and_validate_or_throw` up to `po::notify`, ProgramOptions.cpp:64-89. The search for `-l` and `--lint`
goes through all of `argv`. -/
def readOptions (program : Str) (args : List Str) : Except PoErr Opts := do
  let argv := program :: args
  let ps ← runParser args
  let ps := if !argv.contains (lit "-l") && !argv.contains (lit "--lint") then assignPositions true ps else ps
  let s ← storeAll {} ps
  pure s.opts

/-- `main` on its arguments, main.cpp:32-142. `say`: the message of an error of `boost::program_options`. -/
def mainArgs {σ : Type} (W : World σ) (say : PoErr → List Str → Str) (program : Str) (args : List Str) (w : σ) : Option Outcome :=
  let W := { W with program := program, argc := args.length + 1 }
  match readOptions program args with
  | .error e => main W (.error (say e args)) w
  | .ok o => main W (.ok o) w

end Hext.Cli
