import Verif.Proofs.WritePage
import Verif.Props.Writing
import Verif.Props.Page
import Verif.Props.Transform

/-!
# C60 for completed pages: what is written is shown in the page

`Spec.pagePieces` is the page for the pieces of a document.
-/

set_option autoImplicit false

namespace Mty
open Spec Build Write

/-- What is read from the output for a completed page. -/
theorem page_written {parse : Parser} {src : Str} {ast : Ast.Document} {doc : Document} {cfg : OutputConfig} {m : List Piece} {a b ts : List Tree}
    (hpa : parse src = .ok ast) (hlog : Logs (Build.fromAst src ast) doc [])
    (hi : ∀ i, cfg.indent = some i → Blank i) (hc : cfg.completePage = some true)
    (hf : forestOf src (transformDocument doc src cfg).nodes = a ++ ts ++ b) (ha : AllSpaces a) (hb : AllSpaces b) (hk : Core cfg.isXml src ts m) :
    ∃ out toks w, convert parse src cfg = .ok out ∧
      readMarkup cfg.isXml out = some (.doctype "DOCTYPE html".toList :: .char '\n' :: (toks ++ w)) ∧
      Respaced (piecesTokens cfg.isXml m) toks ∧ WhiteTokens w ∧ (cfg.indent = none → toks = piecesTokens cfg.isXml m ∧ w = []) := by
  have hx : (decide (cfg.xml = some true)) = cfg.isXml := by rw [OutputConfig.isXml, Bool.eq_iff_iff]; simp
  have hd := hlog.fastOk rfl (Errors.new cfg)
  have hsingle := C17_single cfg hd
  have hitems : documentItems cfg src (transformDocument doc src cfg) =
      .doctype :: (plainItems cfg.isXml ⟨false, 0⟩ ts ++ [.gap ⟨false, 0⟩ none]) := by
    rw [documentItems, hc, hx, contentItems_forest _ _ _ _ _ hsingle, hf]
    rw [trimSpaces_firm ha hb hk.firm]
    rfl
  obtain ⟨g1, o1, toks, g2, g3, g4, g5⟩ := hk.reads cfg.indent hi ⟨false, 0⟩ true
  obtain ⟨o2, ws', g6, g7, g8⟩ := gap_reads hi (xml := cfg.isXml) (src := src) (ws := false) (l := ⟨false, 0⟩)
  obtain ⟨hw1, hw2⟩ := document_weaves (src := src) (cfg := cfg) (singles_of hsingle)
  have hok := hw1.2 (by
    rw [hitems]
    intro i hi
    rcases List.mem_cons.1 hi with rfl | hi
    · trivial
    rcases List.mem_append.1 hi with hi | hi
    · exact g1 i hi
    · simp at hi; subst hi; trivial)
  obtain ⟨ws, hwe⟩ := hw2 hok
  rw [hitems] at hwe
  obtain ⟨hout, -⟩ := weaves_unique (.doctype (weaves_append g2 g6)) hwe
  rw [pieceOf_eq .doctype] at hout
  have hrd : readMarkup cfg.isXml ("<!DOCTYPE html>\n".toList ++ (o1 ++ o2)) =
      some (.doctype "DOCTYPE html".toList :: .char '\n' :: (toks ++ o2.map .char)) := by
    have h0 : readRun cfg.isXml .data "<!DOCTYPE html>\n".toList = some (.data, [.doctype "DOCTYPE html".toList, .char '\n']) := by
      cases cfg.isXml <;> decide
    rw [readMarkup, readRun_trans h0 (readRun_trans g3 (readRun_blank cfg.isXml o2 g7))]
    rfl
  refine ⟨_, toks, o2.map .char, ?_, hrd, g4, blank_tokens g7, fun hn => ⟨g5 hn, by rw [g8 hn]; rfl⟩⟩
  rw [convert_ok hpa hlog cfg, hout]
  rcases ho : outputHtmlTo src (transformDocument doc src cfg) cfg with ⟨out, ok⟩
  rw [ho] at hok
  simp only at hok
  subst hok
  rfl

/-- **C60, pages.** If pages are completed, a document written according to the rules of `Spec/Writing.lean` without elements `html`, `head` and
`body` at top level becomes a page with a doctype: the elements for metadata (`title`, `meta`, `link`, `base`) are in its head, in the
order written, everything else in its body, in the order written, and the `html` element has the language. With any
indentation; without one it is exactly so. (The hypothesis on the body leaves out documents that have nothing for it.) -/
theorem C60_page {alnum : Char → Bool} (hal : RightForAscii alnum) {parse : Parser} {src : Str} {cfg : OutputConfig} {m : List Piece}
    (hp : ∀ d, Grammar.parse alnum src = some d → parse src = .ok d)
    (hi : ∀ i, cfg.indent = some i → Blank i) (hc : cfg.completePage = some true) (hm : cfg.metadata = none)
    (hl : ∀ l, cfg.lang = some l → '\\' ∉ l) (hs : ∀ k, SafeName (configuredTag cfg.specialTags k))
    (h : DocumentSource (namesOf cfg.specialTags) src m)
    (hn : ∀ x ∈ m, isElement ["html", "head", "body"] x = false) (hb : bodyPieces m ≠ []) :
    ∃ out toks w, convert parse src cfg = .ok out ∧
      readMarkup (cfg.xml = some true) out = some (.doctype "DOCTYPE html".toList :: .char '\n' :: (toks ++ w)) ∧
      Respaced (piecesTokens (cfg.xml = some true) (pagePieces cfg.lang m)) toks ∧ WhiteTokens w ∧
      (cfg.indent = none → toks = piecesTokens (cfg.xml = some true) (pagePieces cfg.lang m) ∧ w = []) := by
  have hx : (decide (cfg.xml = some true)) = cfg.isXml := by rw [OutputConfig.isXml, Bool.eq_iff_iff]; simp
  rw [hx]
  obtain ⟨s, lines, e, k, h1, h2⟩ := parse_written hal cfg.isXml hs h
  have hpa := hp _ h1
  obtain ⟨doc, es, hlog, hw⟩ := build_cases src ⟨.mk s lines e⟩
  have hes : es = [] := hw.2 h2.ok
  subst hes
  have hd := hlog.fastOk rfl (Errors.new cfg)
  obtain ⟨kk, b, h3, h4, h5⟩ := content_aligned h2 (C55_structure src s e lines _ doc hd)
  obtain ⟨i1, i2, g, f, g', sp, k2, sp', i3, i4, i5⟩ := aligned_split h5 hn
  have hinv : ∀ names, ∀ n ∈ b, isNamed src names (specialNode cfg.specialTags n) = false := fun names n hn' => by
    rw [isNamed_first, invisible_name (h4.invisible n hn')]
  have hall : ∀ n ∈ doc.nodes, isNamed src ["html", "head", "body"] (specialNode cfg.specialTags n) = false := by
    intro n hn'
    rw [h3] at hn'
    rcases List.mem_append.1 hn' with hn' | hn'
    · exact i1 n hn'
    · exact hinv _ n hn'
  obtain ⟨n1, n2, n3⟩ := headNodes_filter hall
  have e1 : doc.nodes.filter (inHead src cfg.specialTags) = kk.filter (inHead src cfg.specialTags) := by
    rw [h3, List.filter_append, (List.filter_eq_nil_iff (l := b)).2 (fun n hn' => by simp [inHead, hinv _ n hn']), List.append_nil]
  have e2 : doc.nodes.filter (fun n => !inHead src cfg.specialTags n) = sp ++ k2 ++ (sp' ++ b) := by
    rw [h3, List.filter_append, i4, (List.filter_eq_self (l := b)).2 (fun n hn' => by simp [inHead, hinv _ n hn'])]
    simp
  rw [e1] at n1
  rw [e2] at n2
  -- the body
  have hbody : Tight f ∧ NSem cfg.isXml src cfg.specialTags .top k2 (joinGaps false f) ∧ bodyPieces m = joinGaps false f := by
    rcases i5.core with ⟨rfl, rfl⟩ | ⟨j1, j2⟩
    · refine absurd ?_ hb
      rw [bodyPieces, i3, trimGaps_gaps]
      · rfl
      · intro x hx'
        simp only [List.append_nil, List.mem_append] at hx'
        exact hx'.elim (i5.before x) (i5.after x)
    · exact ⟨j1, j2, by rw [bodyPieces, i3, trimGaps_tight i5.before i5.after j1]⟩
  obtain ⟨j1, j2, j3⟩ := hbody
  -- the trees
  have hT : forestOf src (transformDocument doc src { cfg with lang := none }).nodes =
      [fullPage [] (inferForest headSpot.context headSpot.parent headSpot.grand true (forestOf src (specialNodes cfg.specialTags (kk.filter (inHead src cfg.specialTags)))))
        (inferForest .section none none true (forestOf src (specialNodes cfg.specialTags (sp ++ k2 ++ (sp' ++ b)))))] := by
    have h := C20_document (cfg := { cfg with lang := none }) (e := Errors.new cfg) (e' := Errors.new cfg) hd hm rfl
    have ht : toInfer { cfg with lang := none } src doc = (completePage src (applySpecialTags cfg doc)).nodes := by
      rw [toInfer, hc]; rfl
    have ha : (applySpecialTags cfg doc).nodes = specialNodes cfg.specialTags doc.nodes := rfl
    have h24 := (C24_page src (applySpecialTags cfg doc)).2.2 (by rw [ha]; exact n3)
    rw [ha, n1, n2] at h24
    rw [ht, h24] at h
    exact h.trans (infer_fullPage _ _)
  generalize hH : inferForest headSpot.context headSpot.parent headSpot.grand true (forestOf src (specialNodes cfg.specialTags (kk.filter (inHead src cfg.specialTags)))) = hs' at hT
  generalize hB : inferForest .section none none true (forestOf src (specialNodes cfg.specialTags (sp ++ k2 ++ (sp' ++ b)))) = ts at hT
  have cH : Body cfg.isXml src hs' (headPieces m) := by
    have hin := inferred headSpot (forestOf src (specialNodes cfg.specialTags (kk.filter (inHead src cfg.specialTags)))) true
    rw [hH] at hin
    rcases i2 with ⟨j4, j5⟩ | ⟨-, j4⟩
    · rw [j4] at hin
      cases hin
      rw [j5]
      exact .empty
    · have := (j4 headSpot (by decide) _ hin).body (a := []) (b := []) (by simp [AllSpaces]) (by simp [AllSpaces])
      rwa [List.append_nil, List.nil_append] at this
  have cB : Body cfg.isXml src ts (bodyPieces m) := by
    have hin := inferred .top (forestOf src (specialNodes cfg.specialTags (sp ++ k2 ++ (sp' ++ b)))) true
    rw [show inferForest Spot.top.context Spot.top.parent Spot.top.grand true _ = ts from hB] at hin
    obtain ⟨a', k', b', rfl, j4, j5, j6⟩ := j2.body i5.spaces (i5.spaces'.append h4) hin
    rw [j3]
    exact j6.body j4 j5
  have hF : ∃ r, forestOf src (transformDocument doc src cfg).nodes = [fullPage (langItems r cfg.lang) hs' ts] := by
    cases hlang : cfg.lang with
    | none =>
      have : ({ cfg with lang := none } : OutputConfig) = cfg := by rw [← hlang]
      rw [this] at hT
      exact ⟨Range.INVALID, hT⟩
    | some l =>
      obtain ⟨r, hr⟩ := lang_fullPage (l := l) (C17_single { cfg with lang := none } hd) hT
      refine ⟨r, ?_⟩
      rw [transformDocument_eq] at hr ⊢
      rw [hlang]
      exact hr
  obtain ⟨r, hF⟩ := hF
  exact page_written (a := []) (b := []) hpa hlog hi hc (by simpa using hF) (by simp [AllSpaces]) (by simp [AllSpaces]) (page_core (attrs_lang hl) cH cB)

/-- **C60, whole pages.** A document with an element `html` at top level is already a page: it gets a doctype, and nothing else
changes. -/
theorem C60_whole {alnum : Char → Bool} (hal : RightForAscii alnum) {parse : Parser} {src : Str} {cfg : OutputConfig} {m : List Piece}
    (hp : ∀ d, Grammar.parse alnum src = some d → parse src = .ok d)
    (hi : ∀ i, cfg.indent = some i → Blank i) (hc : cfg.completePage = some true) (hm : cfg.metadata = none) (hl : cfg.lang = none)
    (hs : ∀ k, SafeName (configuredTag cfg.specialTags k))
    (h : DocumentSource (namesOf cfg.specialTags) src m) (hn : ∃ x ∈ m, isElement ["html"] x = true) :
    ∃ out toks w, convert parse src cfg = .ok out ∧
      readMarkup (cfg.xml = some true) out = some (.doctype "DOCTYPE html".toList :: .char '\n' :: (toks ++ w)) ∧
      Respaced (piecesTokens (cfg.xml = some true) m) toks ∧ WhiteTokens w ∧
      (cfg.indent = none → toks = piecesTokens (cfg.xml = some true) m ∧ w = []) := by
  have hx : (decide (cfg.xml = some true)) = cfg.isXml := by rw [OutputConfig.isXml, Bool.eq_iff_iff]; simp
  rw [hx]
  obtain ⟨s, lines, e, k, h1, h2⟩ := parse_written hal cfg.isXml hs h
  have hpa := hp _ h1
  obtain ⟨doc, es, hlog, hw⟩ := build_cases src ⟨.mk s lines e⟩
  have hes : es = [] := hw.2 h2.ok
  subst hes
  have hd := hlog.fastOk rfl (Errors.new cfg)
  have h55 := C55_structure src s e lines _ doc hd
  obtain ⟨sp, kk, b, h3, h4, h5, h6⟩ := content_blocks h2 h55
  obtain ⟨k2, b2, h3', -, h5'⟩ := content_aligned h2 h55
  have hnm : ∃ n ∈ (applySpecialTags cfg doc).nodes, isNamed src ["html"] n = true := by
    obtain ⟨n, hn1, hn2⟩ := aligned_named (names := ["html"]) (by simp) h5' hn
    refine ⟨specialNode cfg.specialTags n, ?_, hn2⟩
    show _ ∈ specialNodes cfg.specialTags doc.nodes
    rw [h3', specialNodes_app]
    exact List.mem_append_left _ (mem_special hn1)
  have hf := C20_document cfg hd hm hl
  have hti : toInfer cfg src doc = specialNodes cfg.specialTags doc.nodes := by
    rw [toInfer, hc]
    show (completePage src (applySpecialTags cfg doc)).nodes = _
    rw [(C24_page src (applySpecialTags cfg doc)).1 hnm]
    rfl
  rw [hti, h3] at hf
  have hinf := inferred .top (forestOf src (specialNodes cfg.specialTags (sp ++ kk ++ b))) true
  obtain ⟨a', k', b', h7, h8, h9, h10⟩ := h6.body h4 h5 hinf
  exact page_written hpa hlog hi hc (hf.trans h7) h8 h9 h10

/-! ### Documents that meet the hypotheses -/

namespace Written

/-- A document with a title and metadata between paragraphs. -/
def paged : Str := "title> Page\n\nHello\n\nmeta[a=b]>\n\nbye\n".toList

/-- What it stands for. -/
def pagedPieces : List Piece :=
  [.elem "title".toList [] [.text "Page".toList], .gap [' '], .elem "p".toList [] [.text "Hello".toList], .gap [' '],
    .elem "meta".toList [.attribute "a".toList (some "b".toList)] [], .gap [' '], .elem "p".toList [] [.text "bye".toList]]

theorem line_item {names : Names} {p : Spot} {s : Str} (h : ∀ c ∈ s, c.toNat ∉ whiteSpace ∧ c ∉ ['\\', '[', ']', '{', '}', '<', '>', '"', '\'', '`'])
    (hne : s ≠ []) : RowSource names p true true s [.text s] := .inline (.one (item h hne))

theorem paragraph {names : Names} {s : Str} (h : ∀ c ∈ s, c.toNat ∉ whiteSpace ∧ c ∉ ['\\', '[', ']', '{', '}', '<', '>', '"', '\'', '`'])
    (hne : s ≠ []) : BlockSource names .top .paragraph s [.elem "p".toList [] [.text s]] :=
  .paragraph ⟨"p", by decide, fun _ _ => rfl, rfl⟩ (.one (line_item h hne)) ⟨by decide, by decide, fun _ => by decide⟩

theorem writtenPaged : DocumentSource (namesOf {}) paged pagedPieces := by
  have t : BlockSource (namesOf {}) .top .line "title> Page".toList [.elem "title".toList [] [.text "Page".toList]] :=
    .line (.line (h := "title".toList) (a := []) (b := [' ']) (s := "Page".toList)
      (.named (n := "title".toList) (s := []) (b := []) ⟨by simp only [Ascii]; decide, ⟨'t', rfl, by unfold Ascii; decide, by decide⟩, ⟨'e', rfl, by unfold Ascii; decide⟩⟩ .nil .none)
      rfl (by simp [Tabs]) (by simp only [Blanks, White]; decide) (line_item (by decide) (by decide)) ⟨by decide, by decide, fun _ => by decide⟩)
  have me : BlockSource (namesOf {}) .top .line "meta[a=b]>".toList [.elem "meta".toList [.attribute "a".toList (some "b".toList)] []] :=
    .line (.empty (h := "meta[a=b]".toList) (a := []) (n := some "meta".toList)
      (.named (n := "meta".toList) (s := []) (b := "[a=b]".toList) ⟨by simp only [Ascii]; decide, ⟨'m', rfl, by unfold Ascii; decide, by decide⟩, ⟨'a', rfl, by unfold Ascii; decide⟩⟩ .nil
        (.some (a := []) (b := []) (by simp)
          (.one (.unquoted (n := ['a']) (v := ['b']) ⟨by simp only [Ascii]; decide, ⟨'a', rfl, by unfold Ascii; decide, by decide⟩, ⟨'a', rfl, by unfold Ascii; decide⟩⟩ (by simp) (by simp only [White]; decide)))
          (by simp)))
      rfl (by simp [Tabs]) ⟨by decide, by decide, by simp⟩)
  have := BlocksSource.more (v := false) t (sep := "\n\n".toList) (spaces (by decide)) (by decide)
    (.more (paragraph (s := "Hello".toList) (by decide) (by decide)) (sep := "\n\n".toList) (spaces (by decide)) (by decide)
      (.more me (sep := "\n\n".toList) (spaces (by decide)) (by decide) (.one (paragraph (s := "bye".toList) (by decide) (by decide)))))
  exact .mk (a := []) (b := ['\n']) (by simp) this (spaces (by decide))

example : ∃ out toks w, convert RepoTests.parser paged { completePage := some true, lang := some "en".toList, indent := some "  ".toList } = .ok out ∧
    readMarkup false out = some (.doctype "DOCTYPE html".toList :: .char '\n' :: (toks ++ w)) ∧
    Respaced (piecesTokens false [.elem "html".toList [.attribute "lang".toList (some "en".toList)]
      [.elem "head".toList []
        [.elem "title".toList [] [.text "Page".toList], .elem "meta".toList [.attribute "a".toList (some "b".toList)] []],
        .gap [' '],
        .elem "body".toList [] [.elem "p".toList [] [.text "Hello".toList], .gap [' '], .elem "p".toList [] [.text "bye".toList]]]]) toks ∧
    WhiteTokens w := by
  obtain ⟨out, toks, w, h1, h2, h3, h4, -⟩ := C60_page alnum (parse := RepoTests.parser) (src := paged) (m := pagedPieces)
    (cfg := { completePage := some true, lang := some "en".toList, indent := some "  ".toList })
    (fun d h => by rw [RepoTests.parser, h])
    (by rintro i ⟨⟩; simp only [Blank]; decide) rfl rfl (by rintro l ⟨⟩; decide) tags writtenPaged (by decide) (by intro h; cases h)
  exact ⟨out, toks, w, h1, h2, h3, h4⟩

set_option maxRecDepth 20000 in
/-- The output for it. -/
example : convert RepoTests.parser paged { completePage := some true, lang := some "en".toList } =
    .ok ("<!DOCTYPE html>\n<html lang=\"en\"><head><title>Page</title><meta a=\"b\"></head> " ++
      "<body><p>Hello</p> <p>bye</p></body></html>").toList := by decide +kernel

/-- A page written out. -/
def whole : Str := "html {\n  title> Page\n}\n".toList

theorem writtenWhole : DocumentSource (namesOf {}) whole [.elem "html".toList [] [.elem "title".toList [] [.text "Page".toList]]] := by
  have t : BlockSource (namesOf {}) (Spot.top.inside (some "html".toList) (some .block)) .line "title> Page".toList
      [.elem "title".toList [] [.text "Page".toList]] :=
    .line (.line (h := "title".toList) (a := []) (b := [' ']) (s := "Page".toList)
      (.named (n := "title".toList) (s := []) (b := []) ⟨by simp only [Ascii]; decide, ⟨'t', rfl, by unfold Ascii; decide, by decide⟩, ⟨'e', rfl, by unfold Ascii; decide⟩⟩ .nil .none)
      rfl (by simp [Tabs]) (by simp only [Blanks, White]; decide) (line_item (by decide) (by decide)) ⟨by decide, by decide, fun _ => by decide⟩)
  have h : BlockSource (namesOf {}) .top .block "html {\n  title> Page\n}".toList _ :=
    .block (by decide) (.block (h := "html".toList) (a := [' ']) (b := "\n  ".toList) (c := ['\n'])
      (.named (n := "html".toList) (s := []) (b := []) ⟨by simp only [Ascii]; decide, ⟨'h', rfl, by unfold Ascii; decide, by decide⟩, ⟨'l', rfl, by unfold Ascii; decide⟩⟩ .nil .none)
      rfl (by simp [Tabs]) (by decide) (spaces (by decide)) (.one t) (spaces (by decide)) ⟨by decide, by decide, fun _ => by decide⟩)
  exact .mk (a := []) (b := ['\n']) (by simp) (.one (v := false) h) (spaces (by decide))

example : ∃ out toks w, convert RepoTests.parser whole { completePage := some true } = .ok out ∧
    readMarkup false out = some (.doctype "DOCTYPE html".toList :: .char '\n' :: (toks ++ w)) ∧
    Respaced (piecesTokens false [.elem "html".toList [] [.elem "title".toList [] [.text "Page".toList]]]) toks ∧ WhiteTokens w := by
  obtain ⟨out, toks, w, h1, h2, h3, h4, -⟩ := C60_whole (cfg := { completePage := some true }) alnum (parse := RepoTests.parser)
    (fun d h => by rw [RepoTests.parser, h]) (by rintro i ⟨⟩) rfl rfl rfl tags writtenWhole ⟨_, List.mem_singleton_self _, by decide⟩
  exact ⟨out, toks, w, h1, h2, h3, h4⟩

end Written

end Mty
