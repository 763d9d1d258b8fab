import Verif.Spec.FileRead
import Verif.Props.Cli
/-!
# Reading files to their ends (C109)
-/

namespace Hext.Props

open FileRead
open Cli (Exc World Opts Outcome Succeeds render)

variable {σ : Type} {S : System σ} {W : World σ}

theorem copyLoop_eq (failure : Option Str) (room : Option Nat) (bs have_ : Str) (hr : ∀ k, room = some k → have_.length ≤ k) :
    (copyLoop failure room bs have_).1 = have_ ++ match room with
      | none => bs
      | some k => bs.take (k - have_.length) := by
  induction bs generalizing have_ with
  | nil => cases room <;> simp [copyLoop]
  | cons b bs ih =>
    rw [copyLoop]
    cases room with
    | none => simp [ih (have_ ++ [b]) (by simp)]
    | some k =>
      have hk := hr k rfl
      by_cases he : k = have_.length
      · simp [he]
      · rw [if_neg (by simpa using he), ih (have_ ++ [b]) (by simp; omega)]
        simp only [List.append_assoc, List.length_append, List.length_singleton]
        rw [show k - have_.length = (k - (have_.length + 1)) + 1 by omega, List.take_succ_cons]
        simp

theorem readOpen_eq (path : Str) (src : Source) : readOpen path ⟨false, src⟩ = .ok src.cut.bytes := by
  have h := copyLoop_eq src.failure src.room src.bytes [] (by simp)
  simp only [readOpen, FileRead.insert]
  show Except.ok _ = _
  rw [h]
  cases hr : src.room <;> simp [Source.cut, hr]

/-- The function of the model of htmlext is the one with the streams. -/
theorem readFile_same (S : System σ) (W : World σ) (path : Str) (w : σ) : Cli.readFile (S.world W) path w = FileRead.readFile S path w := by
  have hp : ∀ path w, Cli.readPath (S.world W) path w = FileRead.readPath S path w := by
    intro path w
    simp only [Cli.readPath, FileRead.readPath, System.world]
    rcases S.opens path w with ⟨_ | src, w'⟩
    · rfl
    · simp only [readOpen_eq]; rfl
  simp only [Cli.readFile, FileRead.readFile, hp]
  split
  · simp only [System.world]
    rcases S.opens path w with ⟨_ | src, w'⟩
    · rfl
    · simp only [readOpen_eq]; rfl
  · rfl

/-- C109: the second check of `ReadFileOrThrow` never finds anything. Every error is about a file that could not be opened. -/
theorem C109_no_complaint {path : Str} {w w' : σ} {e : Exc} (h : FileRead.readFile S path w = (.error e, w')) :
    ∃ p m, e = .file (lit "cannot access '" ++ p ++ lit "': " ++ m) := by
  have hp : ∀ path w, FileRead.readPath S path w = (.error e, w') → ∃ p m, e = .file (lit "cannot access '" ++ p ++ lit "': " ++ m) := by
    intro path w h
    simp only [FileRead.readPath] at h
    rcases ho : S.opens path w with ⟨m | src, w1⟩
    · rw [ho] at h
      cases h
      exact ⟨path, m, rfl⟩
    · rw [ho] at h
      simp only [readOpen_eq] at h
      cases h
  simp only [FileRead.readFile] at h
  split at h
  · rcases ho : S.opens path w with ⟨m | src, w1⟩
    · rw [ho] at h
      exact hp _ _ h
    · rw [ho] at h
      simp only [readOpen_eq] at h
      cases h
  · exact hp _ _ h

theorem world_files (S : System σ) (W : World σ) (path : Str) (w : σ) : (S.world W).files path w =
    match S.opens path w with
    | (.ok src, w) => (.bytes src.cut.bytes, w)
    | (.error e, w) => (.noOpen e, w) := by
  simp only [System.world]
  rcases S.opens path w with ⟨m | src, w1⟩
  · rfl
  · simp only [readOpen_eq]

/-- C109: whether a file ends somewhere, or cannot be read on from there, makes no difference to htmlext. -/
theorem C109_cut (S : System σ) (W : World σ) (parsed : Except Str Opts) (w : σ) :
    FileRead.main S W parsed w = FileRead.main S.cut W parsed w := by
  have : S.world W = S.cut.world W := by
    have hf : (S.world W).files = (S.cut.world W).files := by
      funext path w
      rw [world_files, world_files]
      simp only [System.cut]
      rcases S.opens path w with ⟨m | src, w1⟩
      · rfl
      · cases hr : src.room <;> simp [Source.cut, hr]
    simp only [System.world, World.mk.injEq, and_true] at hf ⊢
    exact hf
  rw [FileRead.main, FileRead.main, this]

theorem cut_whole {src : Source} (h : src.Whole) : src.cut.bytes = src.bytes := by
  cases hr : src.room with
  | none => simp [Source.cut, hr]
  | some k => simp [Source.cut, hr, List.take_of_length_le (h.2 k hr)]

/-- C109, if all files can be read to their ends. With hexts and HTML files given, the program exits with code 0 if and only if all files
can be opened, all hexts are accepted and all extractions return a result. What it prints then is what the bytes of the whole files ask for.

Missing: files that cannot be read to their ends, see `C109_cut` and `C109_directory`. -/
theorem C109_complete_partial {o : Opts} {w : σ} (hS : S.Whole) (hh : o.help = false) (hv : o.version = false) (hl : o.lint = false)
    (hx : o.hext ≠ [] ∨ o.str ≠ []) (hi : o.html ≠ []) (out err : Str) : FileRead.main S W (.ok o) w = some (.exit 0 out err) ↔
      err = [] ∧ ∃ rules texts results, Succeeds (S.ideal W) o w rules texts results ∧ out = results.flatMap (render W o) := by
  have : S.world W = S.ideal W := by
    have hf : (S.world W).files = (S.ideal W).files := by
      funext path w
      rw [world_files]
      simp only [System.ideal]
      rcases ho : S.opens path w with ⟨m | src, w1⟩
      · rfl
      · simp only [cut_whole (hS path w src w1 ho)]
    simp only [System.ideal, System.world, World.mk.injEq, and_true] at hf ⊢
    exact hf
  rw [FileRead.main, this, C50_success hh hv hl hx hi]
  rfl

/-- A file of one byte that can be read to its end. -/
example : (Source.mk [97] none (some 1)).Whole := ⟨rfl, by simp⟩

/-! ## A directory instead of a file -/

/-- The page without elements of interest, for texts other than `<a/>`. -/
def blankDoc : Tree := Ex.el 1 "html" [] []

/-- The surroundings of `exWorld`, with a `gumbo` that tells `<a/>` from other texts. -/
def readWorld : World Unit :=
  { exWorld with gumbo := fun text => if text = lit "<a/>" then (Ex.heap, Ex.doc.ptr) else (docHeap 0 blankDoc, blankDoc.ptr) }

/-- A system in which `page.html` has the text `<a/>`, and everything else is a directory: it can be opened, but not be read. -/
def dirSystem : System Unit where
  opens := fun path w => (.ok (if path = lit "page.html" then { bytes := lit "<a/>" } else { bytes := [], failure := some (lit "Is a directory") }), w)

theorem C109_example (path : Str) (hp : path = lit "page.html" ∨ path = lit "dir") : FileRead.main dirSystem readWorld (.ok { exOpts with html := [path] }) () =
    some (.exit 0 (if path = lit "page.html" then lit "1\n2\n" else []) []) := by
  have hs : ∀ text res, extract Ex.rx (readWorld.gumbo text).1 hrefRule (readWorld.gumbo text).2 0 = pure res →
      (dirSystem.world readWorld).files path () = (.bytes text, ()) →
      FileRead.main dirSystem readWorld (.ok { exOpts with html := [path] }) () =
        some (.exit 0 (render (dirSystem.world readWorld) { exOpts with html := [path] } res) []) := by
    intro text res h1 h2
    refine (C50_success rfl rfl rfl (.inr (by simp [exOpts])) (by simp) _ _).2 ⟨rfl, [hrefRule], [text], [res], ?_, by simp⟩
    refine ⟨[], (), (), .nil, ?_, .cons (.inl h2) .nil, ?_⟩
    · simp only [exOpts, List.nil_append, List.map_cons, List.map_nil, List.cons.injEq, and_true]
      exact href_parsed Ex.rx true
    · simp only [Cli.AllResults, List.flatMap_cons, List.flatMap_nil, List.append_nil, List.map_cons, List.map_nil, List.cons.injEq, and_true]
      exact h1
  have hsafe := parse_safe (noLong_of_few (by decide)) (href_parsed Ex.rx true)
  rcases hp with rfl | rfl
  · rw [hs (lit "<a/>") [[(lit "x", lit "1")], [(lit "x", lit "2")]] ?_ (by rw [world_files]; rfl)]
    · rfl
    · show extract Ex.rx Ex.heap hrefRule (Loc.root Ex.doc).ptr 0 = _
      rw [extract_eq (rx := Ex.rx) (h := Ex.heap) (n := manyChildren) (by decide) hsafe (l := Loc.root Ex.doc) (isDocument_of_ok (by decide +kernel))]
      decide +kernel
  · rw [hs [] [] ?_ (by rw [world_files]; rfl)]
    · rfl
    · show extract Ex.rx (docHeap 0 blankDoc) hrefRule (Loc.root blankDoc).ptr 0 = _
      rw [extract_eq (rx := Ex.rx) (h := docHeap 0 blankDoc) (n := manyChildren) (by decide) hsafe (l := Loc.root blankDoc) (isDocument_of_ok (by decide +kernel))]
      decide +kernel

/-- C109 is false in full: `htmlext -s '<a href:x/>' -i dir`, where reading `dir` fails because it is a directory, exits with code 0 and prints
nothing, as for a page without links; with `--lint`, a directory is a valid hext. -/
theorem C109_directory : (∃ src w, dirSystem.opens (lit "dir") () = (.ok src, w) ∧ src.failure = some (lit "Is a directory")) ∧
    FileRead.main dirSystem readWorld (.ok { exOpts with html := [lit "dir"] }) () = some (.exit 0 [] []) ∧
    FileRead.main dirSystem readWorld (.ok { hext := [lit "dir"], lint := true }) () = some (.exit 0 [] []) := by
  refine ⟨⟨_, _, rfl, by decide⟩, C109_example _ (.inr rfl), ?_⟩
  refine (C52_lint rfl rfl rfl (.inl (by simp)) _ _).2 ⟨rfl, rfl, [[]], (), [.mk {} none none []], ?_, ?_⟩
  · exact .cons (.inl (by rw [world_files]; rfl)) .nil
  · simp only [List.append_nil, List.map_cons, List.map_nil, List.cons.injEq, and_true]
    exact (parse_items (is := []) (by simp) _).2 ⟨_, _, .nil, rfl⟩

/-- A file that stops being readable after `<a/>` is taken for a file that ends there. -/
example (rest err : Str) (parsed : Except Str Opts) : FileRead.main ⟨fun _ (w : Unit) => (.ok ⟨lit "<a/>" ++ rest, some err, some 4⟩, w)⟩ readWorld parsed () =
    FileRead.main ⟨fun _ (w : Unit) => (.ok { bytes := lit "<a/>" }, w)⟩ readWorld parsed () := by
  rw [C109_cut]
  rfl

/-- A system in which `no.html` does not exist, and all other files have the text `<a/>`. -/
def wholeSystem : System Unit where
  opens := fun path w => (if path = lit "no.html" then .error (lit "No such file or directory") else .ok { bytes := lit "<a/>", room := some 4 }, w)

theorem wholeSystem_whole : wholeSystem.Whole := by
  intro path w src w' h
  simp only [wholeSystem, Prod.mk.injEq] at h
  by_cases hp : path = lit "no.html"
  · rw [if_pos hp] at h
    cases h.1
  · rw [if_neg hp] at h
    cases h.1
    exact ⟨rfl, by simp; decide⟩

theorem wholeSystem_ideal : wholeSystem.ideal exWorld = exWorld := by
  have hf : (wholeSystem.ideal exWorld).files = exWorld.files := by
    funext path w
    simp only [System.ideal, wholeSystem, exWorld]
    by_cases hp : path = lit "no.html"
    · simp only [if_pos hp]
    · simp only [if_neg hp]
  show { exWorld with files := (wholeSystem.ideal exWorld).files } = exWorld
  rw [hf]

example : FileRead.main wholeSystem exWorld (.ok exOpts) () = some (.exit 0 (lit "1\n2\n") []) :=
  (C109_complete_partial wholeSystem_whole rfl rfl rfl (.inr (by simp [exOpts])) (by simp [exOpts]) _ _).2
    ⟨rfl, [hrefRule], [lit "<a/>"], [[[(lit "x", lit "1")], [(lit "x", lit "2")]]],
      by rw [wholeSystem_ideal]; exact ex_succeeds (some (lit "x")) false, by decide⟩

/-- `C109_no_complaint` for the file that does not exist. -/
example : FileRead.readFile wholeSystem (lit "no.html") () =
    (.error (.file (lit "cannot access 'no.html': No such file or directory")), ()) := rfl

end Hext.Props
