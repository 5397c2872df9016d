import Verif.Proofs.WriteParse
import Verif.Proofs.Pieces
import Verif.Props.Infer
import Verif.Props.Structure
import Verif.Props.Pieces
import Verif.Props.RefParser

/-!
# C60, C61: what is written is what is shown

`Spec/Writing.lean` says which strings are documents made of paragraphs, elements, inline elements, comments and text, and which elements, names,
attributes and texts they stand for.
-/

set_option autoImplicit false

namespace Mty
open Spec Build Write

/-- The tree of a written document. -/
theorem parse_written {alnum : Char → Bool} (hal : RightForAscii alnum) {src : Str} {m : List Piece} {c : SpecialTagConfig} (xml : Bool)
    (hs : ∀ k, SafeName (configuredTag c k)) (h : DocumentSource (namesOf c) src m) :
    ∃ s lines e k, Grammar.parse alnum src = some ⟨.mk s lines e⟩ ∧ Blocks xml src c .top false k lines m := by
  cases h with
  | @mk a k s b m h1 h2 h3 =>
    obtain ⟨x, s', hx⟩ := blocks_head h2
    obtain ⟨lines, h4, h5⟩ := blocks_reads (xml := xml) (src := a ++ s ++ b) hal hs h2 a b [] (8 * (a ++ s ++ b).length + 7) (by simp) h3 ⟨.nil, by simp⟩ (.white h3 (by simp))
      (by simp only [List.length_append, List.append_nil]; omega)
    rw [show s ++ (b ++ []) = s ++ b by simp] at h4
    have h6 := content_start (al := alnum) (b := []) (a := a) (x := s ++ b) h1 (head_of hx) (lines := lines)
      (s2 := ⟨a ++ s ++ b, []⟩) (n := 8 * (a ++ s ++ b).length + 7) h4
    refine ⟨byteLen ([] ++ a), lines, (Grammar.Pos.mk (a ++ s ++ b) []).at, k, ?_, h5⟩
    rw [Grammar.parse]
    rw [show a ++ (s ++ b) = a ++ s ++ b by simp] at h6
    rw [h6]
    rfl

/-- With any indentation. -/
theorem written_respaced {alnum : Char → Bool} (hal : RightForAscii alnum) {parse : Parser} {src : Str} {cfg : OutputConfig} {m : List Piece}
    (hp : ∀ d, Grammar.parse alnum src = some d → parse src = .ok d)
    (hi : ∀ i, cfg.indent = some i → Blank i) (hc : cfg.completePage ≠ some true) (hm : cfg.metadata = none) (hl : cfg.lang = none)
    (hs : ∀ k, SafeName (configuredTag cfg.specialTags k))
    (h : DocumentSource (namesOf cfg.specialTags) src m) :
    ∃ out toks w, convert parse src cfg = .ok out ∧ readMarkup (cfg.xml = some true) out = some (toks ++ w) ∧
      Respaced (piecesTokens (cfg.xml = some true) m) toks ∧ WhiteTokens w ∧
      (cfg.indent = none → toks = piecesTokens (cfg.xml = some true) m ∧ w = []) := by
  have hx : (decide (cfg.xml = some true)) = cfg.isXml := by rw [OutputConfig.isXml, Bool.eq_iff_iff]; simp
  have hc' : cfg.completePage.getD false = false := by
    cases hcp : cfg.completePage with
    | none => rfl
    | some v => cases v with
      | false => rfl
      | true => exact absurd hcp hc
  rw [hx]
  obtain ⟨s, lines, e, k, h1, h2⟩ := parse_written hal cfg.isXml hs h
  have hpa := hp _ h1
  obtain ⟨doc, es, hlog, hw⟩ := build_cases src ⟨.mk s lines e⟩
  have hes : es = [] := hw.2 h2.ok
  subst hes
  have hd := hlog.fastOk rfl (Errors.new cfg)
  obtain ⟨sp, kk, b, h3, h4, h5, h6⟩ := content_blocks h2 (C55_structure src s e lines _ doc hd)
  have hf := C20_document cfg hd hm hl
  have hti : toInfer cfg src doc = specialNodes cfg.specialTags doc.nodes := by
    rw [toInfer, hc']; rfl
  rw [hti, h3] at hf
  have hinf := inferred .top (forestOf src (specialNodes cfg.specialTags (sp ++ kk ++ b))) true
  obtain ⟨a', k', b', h7, h8, h9, h10⟩ := h6.body h4 h5 hinf
  have hsingle := C17_single cfg hd
  have hitems : documentItems cfg src (transformDocument doc src cfg) =
      plainItems cfg.isXml ⟨false, 0⟩ k' ++ [.gap ⟨false, 0⟩ none] := by
    rw [documentItems, hc', hx, contentItems_forest _ _ _ _ _ hsingle, hf]
    simp only [Spot.top] at h7
    rw [h7, trimSpaces_firm h8 h9 h10.firm]
    rfl
  obtain ⟨g1, o1, toks, g2, g3, g4, g5⟩ := h10.reads cfg.indent hi ⟨false, 0⟩ true
  obtain ⟨o2, ws', g6, g7, g8⟩ := gap_reads hi (xml := cfg.isXml) (src := src) (ws := false) (l := ⟨false, 0⟩)
  obtain ⟨hw1, hw2⟩ := document_weaves (src := src) (cfg := cfg) (singles_of hsingle)
  have hok := hw1.2 (by
    rw [hitems]
    intro i hi
    rcases List.mem_append.1 hi with hi | hi
    · exact g1 i hi
    · simp at hi; subst hi; trivial)
  obtain ⟨ws, hwe⟩ := hw2 hok
  rw [hitems] at hwe
  obtain ⟨hout, -⟩ := weaves_unique (weaves_append g2 g6) hwe
  have hrd : readMarkup cfg.isXml (o1 ++ o2) = some (toks ++ o2.map .char) := by
    rw [readMarkup, readRun_trans g3 (readRun_blank cfg.isXml o2 g7)]
  refine ⟨o1 ++ o2, toks, o2.map .char, ?_, hrd, g4, blank_tokens g7, fun hn => ⟨g5 hn, by rw [g8 hn]; rfl⟩⟩
  rw [convert_ok hpa hlog cfg, hout]
  rcases ho : outputHtmlTo src (transformDocument doc src cfg) cfg with ⟨out, ok⟩
  rw [ho] at hok
  simp only at hok
  subst hok
  rfl

/-- **C60.** A document written according to the rules of `Spec/Writing.lean` is converted without errors, and its output, read as
markup, consists of exactly the elements, attributes, texts and white space that the rules say it stands for. This holds for every
parser that reads the grammar with ordered choice, and for every such document: names, classes, ids, attributes, nesting, inline and
block elements, short forms, verbatim text, texts and code between fences, comments, paragraphs, and names that are inferred. (Without indentation, completion of pages and metadata, which are
the subject of other properties.) -/
theorem C60_written {alnum : Char → Bool} (hal : RightForAscii alnum) {parse : Parser} {src : Str} {cfg : OutputConfig} {m : List Piece}
    (hp : ∀ d, Grammar.parse alnum src = some d → parse src = .ok d)
    (hi : cfg.indent = none) (hc : cfg.completePage ≠ some true) (hm : cfg.metadata = none) (hl : cfg.lang = none)
    (hs : ∀ k, SafeName (configuredTag cfg.specialTags k))
    (h : DocumentSource (namesOf cfg.specialTags) src m) :
    ∃ out, convert parse src cfg = .ok out ∧ readMarkup (cfg.xml = some true) out = some (piecesTokens (cfg.xml = some true) m) := by
  obtain ⟨out, toks, w, h1, h2, -, -, h3⟩ := written_respaced hal hp (by simp [hi]) hc hm hl hs h
  obtain ⟨rfl, rfl⟩ := h3 hi
  exact ⟨out, h1, by simpa using h2⟩

/-- **C60.** With an indentation of white space, the same document is shown with other white space: only white space that was there
looks different (a line break for a blank), and there is more directly after start tags, directly before end tags, and at the end. -/
theorem C60_indented {alnum : Char → Bool} (hal : RightForAscii alnum) {parse : Parser} {src : Str} {cfg : OutputConfig} {m : List Piece}
    (hp : ∀ d, Grammar.parse alnum src = some d → parse src = .ok d)
    (hi : ∀ i, cfg.indent = some i → Blank i) (hc : cfg.completePage ≠ some true) (hm : cfg.metadata = none) (hl : cfg.lang = none)
    (hs : ∀ k, SafeName (configuredTag cfg.specialTags k))
    (h : DocumentSource (namesOf cfg.specialTags) src m) :
    ∃ out toks w, convert parse src cfg = .ok out ∧ readMarkup (cfg.xml = some true) out = some (toks ++ w) ∧
      Respaced (piecesTokens (cfg.xml = some true) m) toks ∧ WhiteTokens w := by
  obtain ⟨out, toks, w, h1, h2, h3, h4, -⟩ := written_respaced hal hp hi hc hm hl hs h
  exact ⟨out, toks, w, h1, h2, h3, h4⟩

/-! ### A document that meets the hypotheses -/

namespace Written

/-- ASCII letters and digits by their numbers. -/
theorem ascii (c : Char) : Ascii c ↔ (97 ≤ c.toNat ∧ c.toNat ≤ 122) ∨ (65 ≤ c.toNat ∧ c.toNat ≤ 90) ∨ (48 ≤ c.toNat ∧ c.toNat ≤ 57) := Iff.rfl

theorem isAlphanum (c : Char) : Char.isAlphanum c = true ↔ Ascii c := by
  rw [ascii]
  simp only [Char.isAlphanum, Char.isAlpha, Char.isUpper, Char.isLower, Char.isDigit, Bool.or_eq_true, Bool.and_eq_true, decide_eq_true_eq, UInt32.le_iff_toNat_le]
  have : c.val.toNat = c.toNat := rfl
  rw [this]
  simp
  omega

/-- The test for letters and digits of Lean, used in place of the one of Rust. -/
theorem alnum : RightForAscii Char.isAlphanum := by
  refine ⟨fun c hc => ⟨fun hw => ?_, fun hm => ?_⟩, fun c _ => isAlphanum c⟩
  · rw [isAlphanum, ascii] at hc
    simp only [White, whiteSpace, List.mem_cons, List.not_mem_nil, or_false] at hw
    omega
  · revert hc
    revert c
    decide

theorem tags (k : SpecialKind) : SafeName (configuredTag {} k) := by
  cases k
  · exact ⟨'e', ['m'], rfl, by decide, by decide⟩
  · exact ⟨'s', "trong".toList, rfl, by decide, by decide⟩
  · exact ⟨'u', [], rfl, by decide, by decide⟩
  · exact ⟨'s', [], rfl, by decide, by decide⟩
  · exact ⟨'q', [], rfl, by decide, by decide⟩
  · exact ⟨'c', "ode".toList, rfl, by decide, by decide⟩
  · exact ⟨'p', "re".toList, rfl, by decide, by decide⟩

theorem word {s : Str} (h : ∀ c ∈ s, c.toNat ∉ whiteSpace ∧ c ∉ ['\\', '[', ']', '{', '}', '<', '>']) : WordText s s := by
  induction s with
  | nil => exact .nil
  | cons c s ih => exact .plain (h c (by simp)).1 (h c (by simp)).2 (ih fun d hd => h d (by simp [hd]))

/-- A word as an item. -/
theorem item {names : Names} {p : Spot} {s : Str} (h : ∀ c ∈ s, c.toNat ∉ whiteSpace ∧ c ∉ ['\\', '[', ']', '{', '}', '<', '>', '"', '\'', '`'])
    (hne : s ≠ []) : ItemSource names p .text s [.text s] := by
  refine .text (.word (word fun c hc => ⟨(h c hc).1, fun hm => (h c hc).2 (by simp at hm ⊢; tauto)⟩) hne) ?_
  cases s with
  | nil => exact absurd rfl hne
  | cons c s =>
    have := (h c (by simp)).2
    rintro ⟨r, hr | hr | hr⟩ <;> simp at hr <;> simp [hr.1] at this

/-- A document with a comment, a paragraph, a short form, verbatim text, a list with a class and an attribute, and an inline element. -/
def source : Str := "<! <!note!> !>\nHello </big/> world <[#[{]]>}]#]>\n\nul.x[a=\"1\\n\"] {\n  > a\n  > <(b> c)>\n}\n".toList

/-- What it stands for. -/
def pieces : List Piece :=
  [.comment " <!note!> ".toList,
    .elem "p".toList [] [.text "Hello".toList, .gap [' '], .elem "em".toList [] [.text "big".toList], .gap [' '], .text "world".toList, .gap [' '],
      .text "{]]>}".toList], .gap [' '],
    .elem "ul".toList [.cls "x".toList, .attribute "a".toList (some "1\n".toList)]
      [.elem "li".toList [] [.text "a".toList], .gap [' '], .elem "li".toList [] [.elem "b".toList [] [.text "c".toList]]]]

theorem spaces {s : Str} (h : s.all fun c => decide (c.toNat ∈ whiteSpace) = true) : ∀ c ∈ s, White c := by
  intro c hc
  simpa [White] using List.all_eq_true.1 h c hc

/-- A string occurs in another. -/
def occurs (x : Str) : Str → Bool
  | [] => x.isEmpty
  | c :: s => x.isPrefixOf (c :: s) || occurs x s

theorem absent (x : Str) : ∀ s : Str, occurs x s = false → ∀ a b, s ≠ a ++ x ++ b := by
  intro s
  induction s with
  | nil =>
    intro h a b he
    cases a with
    | cons => simp at he
    | nil =>
      cases x with
      | nil => simp [occurs] at h
      | cons => simp at he
  | cons c s ih =>
    intro h a b he
    rw [occurs, Bool.or_eq_false_iff] at h
    cases a with
    | nil =>
      rw [he] at h
      have : x.isPrefixOf ([] ++ x ++ b) = true := by rw [List.isPrefixOf_iff_prefix]; exact ⟨b, rfl⟩
      rw [this] at h
      simp at h
    | cons d a => simp at he; exact ih h.2 a b (by rw [he.2]; simp)

theorem plainComment {s : Str} (h : '<' ∉ s) (h' : '!' ∉ s) : CommentSource s := by
  induction s with
  | nil => exact .nil
  | cons c s ih =>
    simp only [List.mem_cons, not_or] at h h'
    exact .char (fun hc => h.1 hc.1.symm) (fun hc => h'.1 hc.1.symm) (ih h.2 h'.2)

theorem written : DocumentSource (namesOf {}) source pieces := by
  have hb : Blanks [' '] := by simp only [Blanks, White]; decide
  have h1 : BlockSource (namesOf {}) .top .paragraph "Hello </big/> world <[#[{]]>}]#]>".toList
      [.elem "p".toList [] [.text "Hello".toList, .gap [' '], .elem "em".toList [] [.text "big".toList], .gap [' '], .text "world".toList, .gap [' '],
        .text "{]]>}".toList]] := by
    refine .paragraph ⟨"p", by decide, fun f l => by cases f <;> cases l <;> decide, rfl⟩ (.one (.inline (k := .text) ?_)) ⟨by decide, by decide, fun _ => by decide⟩
    have e0 : ItemSource (namesOf {}) (Spot.top.inside (some "p".toList) (some .paragraph)) .element "<[#[{]]>}]#]>".toList [.text "{]]>}".toList] :=
      .verbatim (n := 1) (s := "{]]>}".toList) (by decide) (by decide) (by decide) (by decide) (absent _ _ (by decide))
    have e1 : InlineSource (namesOf {}) (Spot.top.inside (some "p".toList) (some .paragraph)) .text true "world <[#[{]]>}]#]>".toList
        [.text "world".toList, .gap [' '], .text "{]]>}".toList] :=
      .more (w := [' ']) (s := "world".toList) (item (by decide) (by decide)) (.one e0) (by simp) hb (by decide)
    have e2 : ItemSource (namesOf {}) (Spot.top.inside (some "p".toList) (some .paragraph)) .element "</big/>".toList
        [.elem "em".toList [] [.text "big".toList]] :=
      .special (f := .emphasis) (a := []) (b := []) (s := "big".toList) (by simp) (.one (.inline (.one (item (by decide) (by decide)))))
        ⟨by decide, by decide, fun _ => by decide⟩ (by simp) (by simp)
    have e3 := InlineSource.more (w := [' ']) e2 e1 (by simp) hb (by decide)
    exact InlineSource.more (w := [' ']) (item (s := "Hello".toList) (by decide) (by decide)) e3 (by simp) hb (by decide)
  have hword : ∀ (c : Char), Ascii c → ¬ ('0' ≤ c ∧ c ≤ '9') → Word [c] := fun c h h' =>
    ⟨by simp [h], ⟨c, rfl, h, h'⟩, ⟨c, rfl, h⟩⟩
  have hul : Word "ul".toList :=
    ⟨by simp only [Ascii]; decide, ⟨'u', rfl, by unfold Ascii; decide, by decide⟩, ⟨'l', rfl, by unfold Ascii; decide⟩⟩
  have hsel : SelectorSource "ul.x[a=\"1\\n\"]".toList (some "ul".toList) [.cls "x".toList, .attribute "a".toList (some "1\n".toList)] :=
    .named (s := ".x".toList) (b := "[a=\"1\\n\"]".toList) (ps := [_]) (qs := [_]) hul
      (.cls (n := ['x']) (hword _ (by unfold Ascii; decide) (by decide)) .nil)
      (.some (a := []) (b := []) (by simp)
        (.one (.quoted (n := ['a']) (q := "1\\n".toList) (hword _ (by unfold Ascii; decide) (by decide)) (.plain (by decide) (.esc .newline .nil)))) (by simp))
  let q := Spot.top.inside (some "ul".toList) (some .block)
  have hli : HasName q (some .line) none "li".toList := ⟨"li", by decide, fun f l => by cases f <;> cases l <;> decide, rfl⟩
  have h2 : BlockSource (namesOf {}) q .line "> a".toList [.elem "li".toList [] [.text "a".toList]] :=
    .line (.bare (b := [' ']) hli hb (.inline (.one (item (s := ['a']) (by decide) (by decide)))) ⟨by decide, by decide, fun _ => by decide⟩)
  have h3 : BlockSource (namesOf {}) q .line "> <(b> c)>".toList [.elem "li".toList [] [.elem "b".toList [] [.text "c".toList]]] :=
    .line (.bare (b := [' ']) hli hb (.inline (.one (.element (f := .line) (a := []) (b := []) (s := "b> c".toList) (by decide) (by simp)
      (.line (h := ['b']) (n := some ['b']) (a := []) (b := [' ']) (s := ['c']) (ps := [])
        (.named (n := ['b']) (s := []) (b := []) (hword _ (by unfold Ascii; decide) (by decide)) .nil .none) rfl (by simp [Tabs]) hb
        (.inline (.one (item (by decide) (by decide)))) ⟨by decide, by decide, fun _ => by decide⟩) (by simp))))
      ⟨by decide, by decide, fun _ => by decide⟩)
  have h4 : BlocksSource (namesOf {}) q false .line "> a\n  > <(b> c)>".toList _ :=
    .more (sep := "\n  ".toList) h2 (spaces (by decide)) (by decide) (.one h3)
  have h5 : BlockSource (namesOf {}) .top .block "ul.x[a=\"1\\n\"] {\n  > a\n  > <(b> c)>\n}".toList _ :=
    .block (by decide) (.block (a := [' ']) (b := "\n  ".toList) (c := ['\n']) hsel rfl (by simp [Tabs]) (by decide) (spaces (by decide)) h4
      (spaces (by decide)) ⟨by decide, by decide, fun _ => by decide⟩)
  have h6 : BlocksSource (namesOf {}) .top false .paragraph
      "Hello </big/> world <[#[{]]>}]#]>\n\nul.x[a=\"1\\n\"] {\n  > a\n  > <(b> c)>\n}".toList (pieces.drop 1) :=
    .more (sep := "\n\n".toList) h1 (spaces (by decide)) (by decide) (.one h5)
  have h7 : CommentSource " <!note!> ".toList :=
    CommentSource.char (c := ' ') (s := "<!note!> ".toList) (by decide) (by decide) (.nested (a := "note".toList) (s := [' ']) (plainComment (by decide) (by decide)) (plainComment (by decide) (by decide)))
  have h8 : BlockSource (namesOf {}) .top .comment "<! <!note!> !>".toList [.comment " <!note!> ".toList] :=
    .comment (k := .comment) (.one (.comment (s := " <!note!> ".toList) h7 ⟨fun a b => by simpa using absent ['-', '-'] _ (by decide) a b, fun b => by simp, fun b => by simp,
      fun a => by simpa using absent ['-'] " <!note!> ".toList (by decide) a []⟩))
  have h9 : BlocksSource (namesOf {}) .top false .comment
      "<! <!note!> !>\nHello </big/> world <[#[{]]>}]#]>\n\nul.x[a=\"1\\n\"] {\n  > a\n  > <(b> c)>\n}".toList pieces :=
    .more (sep := "\n".toList) h8 (spaces (by decide)) (by decide) h6
  exact .mk (a := []) (b := ['\n']) (by simp) h9 (spaces (by decide))

example : ∃ out, convert RepoTests.parser source {} = .ok out ∧ readMarkup false out = some (piecesTokens false pieces) :=
  C60_written alnum (fun d hd => by rw [RepoTests.parser, hd]) rfl (by decide) rfl rfl tags written

example : ∃ out toks w, convert RepoTests.parser source { indent := some "  ".toList } = .ok out ∧ readMarkup false out = some (toks ++ w) ∧
    Respaced (piecesTokens false pieces) toks ∧ WhiteTokens w :=
  C60_indented (cfg := { indent := some "  ".toList }) alnum (fun d hd => by rw [RepoTests.parser, hd])
    (by rintro i ⟨⟩; simp only [Blank]; decide) (by decide) rfl rfl tags written

set_option maxRecDepth 20000 in
example : convert RepoTests.parser source {} =
    .ok "<!-- <!note!> --><p>Hello <em>big</em> world {]]&gt;}</p> <ul class=\"x\" a=\"1&NewLine;\"><li>a</li> <li><b>c</b></li></ul>".toList := by
  decide +kernel

/-- A document with a text and code between fences. -/
def fenced : Str := "'''\n  a <b>\n c\n '''\n\n```rust\nx;\n```\np> \"\"\"\n\t\\x41\n\t\"\"\"\n".toList

/-- What it stands for. -/
def fencedPieces : List Piece :=
  [.elem "p".toList [] [.text " a <b>\nc".toList], .gap [' '], .elem "pre".toList [] [.elem "code".toList [] [.text "x;".toList]], .gap [' '],
    .elem "p".toList [] [.text "A".toList]]

theorem freeLine {q : Char} {l : Str} (h : l.contains q = false) (h' : l.contains '\n' = false) : FreeLine q l := by
  refine ⟨by simpa using h', fun w x _ he => ?_⟩
  rw [he] at h
  simp at h

theorem noCr {l : Str} (h : l.contains '\r' = false) : DropCr l l :=
  .none l fun l' he => by rw [he] at h; simp at h

theorem writtenFenced : DocumentSource (namesOf {}) fenced fencedPieces := by
  have f1 : FencedSource '\'' "'''\n  a <b>\n c\n '''".toList " a <b>\nc".toList :=
    .mk (info := []) (indent := [' ']) (lines := ["  a <b>".toList]) (l := " c".toList) (l₁ := " c".toList) (l₂ := ['c']) (lines' := [" a <b>".toList])
      (by simp) (by simp [Tabs]) (by
        intro x hx
        simp only [List.cons_append, List.nil_append, List.mem_cons, List.not_mem_nil, or_false] at hx
        rcases hx with rfl | rfl <;> exact freeLine (by decide) (by decide)) (noCr (by decide)) (.strip (pre := [' ']) ['c']) (.cons (.strip (pre := [' ']) " a <b>".toList) .nil) (by decide)
  have f2 : FencedSource '`' "```rust\nx;\n```".toList "x;".toList :=
    .mk (info := "rust".toList) (indent := []) (lines := []) (l := "x;".toList) (l₁ := "x;".toList) (l₂ := "x;".toList) (lines' := [])
      (by decide) (by simp [Tabs]) (by
        intro x hx
        simp only [List.nil_append, List.mem_cons, List.not_mem_nil, or_false] at hx
        subst hx; exact freeLine (by decide) (by decide)) (noCr (by decide)) (.strip (pre := []) "x;".toList) .nil (by decide)
  have f3 : FencedSource '"' "\"\"\"\n\t\\x41\n\t\"\"\"".toList "\\x41".toList :=
    .mk (info := []) (indent := ['\t']) (lines := []) (l := "\t\\x41".toList) (l₁ := "\t\\x41".toList) (l₂ := "\\x41".toList) (lines' := [])
      (by decide) (by simp [Tabs]) (by
        intro x hx
        simp only [List.nil_append, List.mem_cons, List.not_mem_nil, or_false] at hx
        subst hx; exact freeLine (by decide) (by decide)) (noCr (by decide)) (.strip (pre := ['\t']) "\\x41".toList) .nil (by decide)
  have hp : HasName Spot.top (some .paragraph) none "p".toList := ⟨"p", by decide, fun f l => by cases f <;> cases l <;> decide, rfl⟩
  have n1 : Nameless (Spot.top.inside (some "p".toList) (some .paragraph)) := fun f l => by cases f <;> cases l <;> decide
  have n2 : Nameless (Spot.top.inside (some "p".toList) (some .line)) := fun f l => by cases f <;> cases l <;> decide
  have b1 : BlockSource (namesOf {}) .top .paragraph _ [.elem "p".toList [] [.text " a <b>\nc".toList]] :=
    .paragraph hp (.one (.text n1 (.verbatim f1 (by decide) (by decide)))) ⟨by decide, by decide, fun _ => by decide⟩
  have b2 : BlockSource (namesOf {}) .top .block _ [.elem "pre".toList [] [.elem "code".toList [] [.text "x;".toList]]] :=
    .code (.code rfl f2 ⟨by decide, by decide, fun _ => by decide⟩ ⟨by decide, by decide, fun _ => by decide⟩)
  have u1 : Unescapes EscSeq "\\x41".toList ['A'] := .esc (e := "x41".toList) (c := 'A') (s := []) (.byte (n := 65) (by decide) (.snoc (.one (c := '4') (d := 4) (by decide)) (d := 1) (by decide)) (by decide)) .nil
  have b3 : BlockSource (namesOf {}) .top .line ("p> ".toList ++ "\"\"\"\n\t\\x41\n\t\"\"\"".toList) [.elem "p".toList [] [.text ['A']]] :=
    .line (.line (h := ['p']) (n := some ['p']) (a := []) (b := [' ']) (ps := [])
      (.named (n := ['p']) (s := []) (b := []) ⟨by simp [Ascii], ⟨'p', rfl, by unfold Ascii; decide, by decide⟩, ⟨'p', rfl, by unfold Ascii; decide⟩⟩ .nil .none) rfl
      (by simp [Tabs]) (by simp only [Blanks, White]; decide) (.text n2 (.escaped f3 u1 (by decide) (by decide))) ⟨by decide, by decide, fun _ => by decide⟩)
  have c1 : BlocksSource (namesOf {}) .top false .paragraph _ fencedPieces :=
    .more (sep := "\n\n".toList) b1 (spaces (by decide)) (by decide) (.more (sep := "\n".toList) b2 (spaces (by decide)) (by decide) (.one b3))
  exact .mk (a := []) (b := ['\n']) (by simp) c1 (spaces (by decide))

example : ∃ out, convert RepoTests.parser fenced {} = .ok out ∧ readMarkup false out = some (piecesTokens false fencedPieces) :=
  C60_written alnum (fun d hd => by rw [RepoTests.parser, hd]) rfl (by decide) rfl rfl tags writtenFenced

set_option maxRecDepth 20000 in
example : convert RepoTests.parser fenced {} =
    .ok "<p> a &lt;b&gt;&NewLine;c</p> <pre><code>x;</code></pre> <p>A</p>".toList := by
  decide +kernel

end Written


/-! ## C61 -/

theorem hexNum_exists (k : Nat) : ∀ n, n < 16 ^ (k + 1) → ∃ ds, HexNum ds n ∧ ds.length = k + 1 := by
  have hd : ∀ d < 16, ∃ c, hexVal c = some d := by
    intro d hd
    have : d = 0 ∨ d = 1 ∨ d = 2 ∨ d = 3 ∨ d = 4 ∨ d = 5 ∨ d = 6 ∨ d = 7 ∨ d = 8 ∨ d = 9 ∨ d = 10 ∨ d = 11 ∨ d = 12 ∨ d = 13 ∨ d = 14 ∨ d = 15 := by
      omega
    rcases this with rfl | rfl | rfl | rfl | rfl | rfl | rfl | rfl | rfl | rfl | rfl | rfl | rfl | rfl | rfl | rfl
    · exact ⟨'0', by decide⟩
    · exact ⟨'1', by decide⟩
    · exact ⟨'2', by decide⟩
    · exact ⟨'3', by decide⟩
    · exact ⟨'4', by decide⟩
    · exact ⟨'5', by decide⟩
    · exact ⟨'6', by decide⟩
    · exact ⟨'7', by decide⟩
    · exact ⟨'8', by decide⟩
    · exact ⟨'9', by decide⟩
    · exact ⟨'a', by decide⟩
    · exact ⟨'b', by decide⟩
    · exact ⟨'c', by decide⟩
    · exact ⟨'d', by decide⟩
    · exact ⟨'e', by decide⟩
    · exact ⟨'f', by decide⟩
  induction k with
  | zero =>
    intro n hn
    obtain ⟨c, hc⟩ := hd n (by simpa using hn)
    exact ⟨[c], .one hc, rfl⟩
  | succ k ih =>
    intro n hn
    obtain ⟨ds, h1, h2⟩ := ih (n / 16) (by rw [Nat.pow_succ] at hn; omega)
    obtain ⟨c, hc⟩ := hd (n % 16) (Nat.mod_lt _ (by decide))
    have := HexNum.snoc h1 hc
    rw [show n / 16 * 16 + n % 16 = n by omega] at this
    exact ⟨ds ++ [c], this, by simp [h2]⟩

/-- Every character has an escape sequence. -/
theorem escSeq_exists (c : Char) : ∃ e, EscSeq e c := by
  obtain ⟨ds, h1, h2⟩ := hexNum_exists 5 c.toNat (by
    have h : c.toNat < 1114112 := by
      rcases c.valid with h | ⟨-, h⟩
      · exact Nat.lt_trans h (by decide)
      · exact h
    exact Nat.lt_trans h (by decide))
  have h3 : Nat.isValidChar c.toNat := c.valid
  refine ⟨'u' :: '{' :: ds ++ ['}'], ?_⟩
  have := EscSeq.unicode h3 h1 (by omega)
  have h4 : Char.ofNatAux c.toNat h3 = c := by
    apply Char.ext
    exact UInt32.toNat.inj rfl
  rwa [h4] at this

theorem quoted_exists (t : Str) : ∃ s, QuotedSource s t := by
  induction t with
  | nil => exact ⟨[], .nil⟩
  | cons c t ih =>
    obtain ⟨s, hs⟩ := ih
    obtain ⟨e, he⟩ := escSeq_exists c
    exact ⟨_, .esc he hs⟩

theorem words_exist (t : Str) : ∃ s, WordText s t ∧ (t ≠ [] → ∃ s', s = '\\' :: s') := by
  induction t with
  | nil => exact ⟨[], .nil, by simp⟩
  | cons c t ih =>
    obtain ⟨s, hs, -⟩ := ih
    obtain ⟨e, he⟩ := escSeq_exists c
    exact ⟨_, .esc he hs, fun _ => ⟨_, rfl⟩⟩

theorem classes_exist (ps : List Spec.Part) (h : ∀ q ∈ ps, ∃ n, Word n ∧ (q = .cls n ∨ q = .id n)) : ∃ s, ClassesSource s ps := by
  induction ps with
  | nil => exact ⟨[], .nil⟩
  | cons q ps ih =>
    obtain ⟨s, hs⟩ := ih fun q hq => h q (by simp [hq])
    obtain ⟨n, hn, rfl | rfl⟩ := h q (by simp)
    · exact ⟨_, .cls hn hs⟩
    · exact ⟨_, .id hn hs⟩

theorem attributes_exist (qs : List Spec.Part) (h : ∀ q ∈ qs, ∃ n v, Word n ∧ q = .attribute n v) (hne : qs ≠ []) :
    ∃ s, AttributesSource s qs := by
  induction qs with
  | nil => exact absurd rfl hne
  | cons q qs ih =>
    have h1 : ∃ s, AttributeSource s q := by
      obtain ⟨n, v, hn, rfl⟩ := h q (by simp)
      cases v with
      | none => exact ⟨_, .bare hn⟩
      | some v =>
        obtain ⟨s, hs⟩ := quoted_exists v
        exact ⟨_, .quoted hn hs⟩
    obtain ⟨s, hs⟩ := h1
    by_cases h2 : qs = []
    · subst h2
      exact ⟨s, .one hs⟩
    · obtain ⟨s', hs'⟩ := ih (fun q hq => h q (by simp [hq])) h2
      exact ⟨_, .more (w := [' ']) hs (by simp) (by simp only [White]; decide) hs'⟩

theorem selector_exists {name : Str} {parts : List Spec.Part} (hw : Word name) (h : Labels parts) : ∃ s, SelectorSource s (some name) parts := by
  obtain ⟨ps, qs, rfl, h1, h2⟩ := h
  obtain ⟨s, hs⟩ := classes_exist ps h1
  by_cases h3 : qs = []
  · subst h3
    exact ⟨_, .named hw hs .none⟩
  · obtain ⟨s', hs'⟩ := attributes_exist qs h2 h3
    exact ⟨_, .named hw hs (.some (a := []) (b := []) (by simp) hs' (by simp))⟩

mutual
  theorem element_exists {e : Piece} (h : ElementTree e) : ∃ s, ∀ names p, ElementSource names p .line s [e] :=
    match h with
    | @ElementTree.mk name parts content t hw hl hh hc => by
      obtain ⟨sel, hsel⟩ := selector_exists hw hl
      by_cases hne : content = []
      · subst hne
        exact ⟨_, fun names p => .empty (a := []) hsel rfl (by simp [Tabs]) hh⟩
      · obtain ⟨s, hs⟩ := content_exists hc hne
        exact ⟨_, fun names p => .line (a := []) (b := []) hsel rfl (by simp [Tabs]) (by simp [Blanks]) (.inline (hs names _)) hh⟩
  theorem content_exists {t : Bool} {ps : List Piece} (h : ContentTrees t ps) (hne : ps ≠ []) :
      ∃ s, ∀ names p, InlineSource names p (if t then .text else .element) true s ps :=
    match h with
    | .nil => absurd rfl hne
    | @ContentTrees.text t ps ht hr => by
      obtain ⟨w, hw, hw'⟩ := words_exist t
      obtain ⟨w', rfl⟩ := hw' ht
      have h1 : ∀ names p, ItemSource names p .text ('\\' :: w') [.text t] := fun names p =>
        .text (.word hw (by simp)) (by simp [BeginsWithFence])
      by_cases hps : ps = []
      · subst hps
        exact ⟨_, fun names p => .one (h1 names p)⟩
      · obtain ⟨s, hs⟩ := content_exists hr hps
        exact ⟨_, fun names p => by simpa [gapPieces, ItemKind.shows] using InlineSource.more (w := []) (h1 names p) (hs names p) (by simp) (by simp [Blanks]) (by simp)⟩
    | @ContentTrees.element b e ps he hr => by
      obtain ⟨w, hw⟩ := element_exists he
      have h1 : ∀ names p, ItemSource names p .element ("<(".toList ++ [] ++ w ++ [] ++ ")>".toList) [e] := fun names p =>
        .element (by simp) (by simp) (hw names p) (by simp)
      by_cases hps : ps = []
      · subst hps
        exact ⟨_, fun names p => .one (h1 names p)⟩
      · obtain ⟨s, hs⟩ := content_exists hr hps
        exact ⟨_, fun names p => by
          simpa [gapPieces, ItemKind.shows] using InlineSource.more (w := []) (h1 names p) (hs names p) (by simp) (by simp [Blanks]) (by simp)⟩
end

/-- **C61.** Everything can be written: for every tree of elements — names, ids, classes and attribute names being words of ASCII
letters, digits and `-`, with arbitrary texts and attribute values, nested to any depth — there is a document whose conversion, read as
markup, is exactly that tree, for HTML and for XML. (`script` and `style`, whose content is not text, are left out.) -/
theorem C61_expressible {e : Piece} (he : ElementTree e) :
    ∃ src, ∀ (alnum : Char → Bool) (parse : Parser) (cfg : OutputConfig), RightForAscii alnum →
      (∀ d, Grammar.parse alnum src = some d → parse src = .ok d) →
      cfg.indent = none → cfg.completePage ≠ some true → cfg.metadata = none → cfg.lang = none →
      (∀ k, SafeName (configuredTag cfg.specialTags k)) →
      ∃ out, convert parse src cfg = .ok out ∧ readMarkup (cfg.xml = some true) out = some (pieceTokens (cfg.xml = some true) e) := by
  obtain ⟨s, hs⟩ := element_exists he
  refine ⟨s, fun alnum parse cfg hal hp hi hc hm hl hsafe => ?_⟩
  have h1 : DocumentSource (namesOf cfg.specialTags) s [e] := by
    have := DocumentSource.mk (names := namesOf cfg.specialTags) (a := []) (b := []) (by simp) (.one (.line (hs _ .top))) (by simp)
    simpa using this
  have h2 := C60_written hal hp hi hc hm hl hsafe h1
  simpa [piecesTokens] using h2

/-- A tree with a text of characters that have meanings, an attribute, a class, nesting and a void element. -/
example : ElementTree (.elem "div".toList [.cls "a".toList, .attribute "t".toList (some "<\"\n".toList)]
    [.text " {<}> ".toList, .elem "br".toList [] [], .elem "b".toList [] [.text "\\\r\n".toList]]) := by
  have hw : ∀ s : Str, s.all (fun c => decide (97 ≤ c.toNat ∧ c.toNat ≤ 122)) = true → s ≠ [] → Word s := by
    intro s h hne
    have h1 : ∀ c ∈ s, 97 ≤ c.toNat ∧ c.toNat ≤ 122 := fun c hc => by simpa using List.all_eq_true.1 h c hc
    have h2 : ∀ c ∈ s, Ascii c := fun c hc => .inl (h1 c hc)
    refine ⟨fun c hc => .inl (h2 c hc), ⟨s.head hne, List.head?_eq_some_head hne, h2 _ (List.head_mem hne), fun h3 => ?_⟩,
      ⟨s.getLast hne, List.getLast?_eq_some_getLast hne, h2 _ (List.getLast_mem hne)⟩⟩
    have h4 := (h1 _ (List.head_mem hne)).1
    have h5 : (s.head hne).toNat ≤ 57 := h3.2
    omega
  refine .mk (t := true) (hw _ (by decide) (by decide)) ⟨[_], [_], rfl, ?_, ?_⟩ ⟨by decide, by decide, fun _ => by decide⟩
    (.text (by decide) (.element (b := false) ?_ (.element (b := false) ?_ .nil)))
  · simp only [List.mem_singleton, forall_eq]
    exact ⟨_, hw _ (by decide) (by decide), .inl rfl⟩
  · simp only [List.mem_singleton, forall_eq]
    exact ⟨_, _, hw _ (by decide) (by decide), rfl⟩
  · exact .mk (hw _ (by decide) (by decide)) ⟨[], [], rfl, by simp, by simp⟩ ⟨by decide, by decide, by simp⟩ .nil
  · exact .mk (hw _ (by decide) (by decide)) ⟨[], [], rfl, by simp, by simp⟩ ⟨by decide, by decide, fun _ => by decide⟩ (.text (by decide) .nil)

end Mty
