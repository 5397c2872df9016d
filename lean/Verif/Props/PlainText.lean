import Verif.Proofs.PlainBuild
import Verif.Props.Infer
import Verif.Props.Grammar

/-!
# C49: plain text

The specification is in `Spec/PlainText.lean`: what a document of words, lines and paragraphs stands for.
Nothing but the grammar (`Grammar.Conforms`) is assumed about the parser: whichever tree of the grammar it
returns, the output is the same.
-/

set_option autoImplicit false

namespace Mty
open Spec Grammar

theorem paragraphs_run (xml : Bool) : ∀ ts : List Str, readRun xml .data (paragraphsOut xml ts) = some (.data, paragraphTokens ts) := by
  have hp : ∀ t : Str, readRun xml .data ("<p>".toList ++ escWriteStr xml false t ++ "</p>".toList) =
      some (.data, .start "p".toList [] false :: t.map .char ++ [.stop "p".toList]) := by
    intro t
    have h1 : readRun xml .data "<p>".toList = some (.data, [.start "p".toList [] false]) := by cases xml <;> decide
    have h2 : readRun xml .data "</p>".toList = some (.data, [.stop "p".toList]) := by cases xml <;> decide
    exact readRun_trans (readRun_trans h1 (readRun_escText xml t)) h2
  intro ts
  induction ts with
  | nil => rfl
  | cons t ts ih =>
    cases ts with
    | nil => exact hp t
    | cons u ts =>
      have h3 : readRun xml .data [' '] = some (.data, [.char ' ']) := by cases xml <;> decide
      have := readRun_trans (hp t) (readRun_trans h3 ih)
      simp only [paragraphsOut, paragraphTokens]
      simpa using this

/-- **C49.** Plain text is converted faithfully: if the source is a document of words in lines and paragraphs that
stands for the texts `ts`, then the conversion succeeds, and the output is one `p` element for each text, in
order, with exactly this text, whichever tree of the grammar the parser returns. (Without indentation, page
completion, `lang` and metadata; the other options are arbitrary.) -/
theorem C49_plain_text (alnum : Char → Bool) (hal : LettersAndDigits alnum) (parse : Parser) (src : Str) (ts : List Str)
    (ast : Ast.Document) (cfg : OutputConfig) (h : PlainText src ts) (hp : parse src = .ok ast)
    (hc : Conforms alnum src ast = true) (hi : cfg.indent = none) (hcp : cfg.completePage ≠ some true)
    (hm : cfg.metadata = none) (hl : cfg.lang = none) :
    ∃ out, convert parse src cfg = .ok out ∧ readMarkup (cfg.xml = some true) out = some (paragraphTokens ts) := by
  obtain ⟨doc, cl, op, h1, h2, rfl⟩ := plain_built hal h hc
  have hd : Build.fromAst src ast { failFast := false } = (some doc, { failFast := false }) := h1.fastOk rfl _
  have hcp' : cfg.completePage.getD false = false := by
    cases hx : cfg.completePage with
    | none => rfl
    | some b => cases b with
      | false => rfl
      | true => exact absurd hx hcp
  have hti : toInfer cfg src doc = doc.nodes := by
    rw [toInfer, hcp']
    simp only [Bool.false_eq_true, if_false, applySpecialTags]
    exact specialNodes_built _ h2
  have hf := C20_document cfg hd hm hl
  rw [hti] at hf
  obtain ⟨g1, g2⟩ := trees_infer (built_trees h2)
  rw [inferForest_map asP _ _ _ _ _ g1] at hf
  have := plain_output hi hcp' g2 (C17_single cfg hd) hf
  refine ⟨paragraphsOut cfg.isXml (cl ++ op.toList), ?_, ?_⟩
  · rw [convert_ok hp h1, this]
  · have hx : decide (cfg.xml = some true) = cfg.isXml := by
      unfold OutputConfig.isXml
      first | rfl | (cases hx : cfg.xml with | none => rfl | some b => cases b <;> rfl)
    rw [hx, readMarkup, paragraphs_run]

/-! ## An example -/

theorem ascii_lettersAndDigits : LettersAndDigits Char.isAlphanum := by
  intro c hc
  have h : ('0'.toNat ≤ c.toNat ∧ c.toNat ≤ '9'.toNat) ∨ ('a'.toNat ≤ c.toNat ∧ c.toNat ≤ 'z'.toNat) ∨
      ('A'.toNat ≤ c.toNat ∧ c.toNat ≤ 'Z'.toNat) := by
    simp only [Char.isAlphanum, Char.isAlpha, Char.isUpper, Char.isLower, Char.isDigit, Bool.or_eq_true, Bool.and_eq_true,
      decide_eq_true_eq, ge_iff_le, UInt32.le_iff_toNat_le] at hc
    rcases hc with (⟨h1, h2⟩ | ⟨h1, h2⟩) | ⟨h1, h2⟩
    · exact .inr (.inr ⟨h1, h2⟩)
    · exact .inr (.inl ⟨h1, h2⟩)
    · exact .inl ⟨h1, h2⟩
  have h' : (48 ≤ c.toNat ∧ c.toNat ≤ 57) ∨ (97 ≤ c.toNat ∧ c.toNat ≤ 122) ∨ (65 ≤ c.toNat ∧ c.toNat ≤ 90) := h
  refine ⟨?_, ?_⟩
  · intro hw
    simp only [White, whiteSpace, List.mem_cons, List.not_mem_nil, or_false] at hw
    omega
  · intro hm
    simp only [List.mem_cons, List.not_mem_nil, or_false] at hm
    rcases hm with rfl | rfl | rfl | rfl | rfl | rfl | rfl <;> revert h' <;> decide

/-- Two paragraphs: `AT&T \<3` and `two` in two lines, and `x`. -/
def plainSrc : Str := "AT&T \\<3\n two\n\n x".toList
def plainAst : Ast.Document := ⟨.mk 0 [
  .mk 0 [.mk none 0 8 (Ex.seg 0 8)] 8,
  .mk 10 [.mk none 10 13 (Ex.seg 10 13)] 13,
  .mk 14 [] 14,
  .mk 16 [.mk none 16 17 (Ex.seg 16 17)] 17] 17⟩

theorem plainWord {s : Str} (h : s.all (fun c => decide (c.toNat ∉ whiteSpace) && decide (c ∉ ['\\', '[', ']', '{', '}', '<', '>'])) = true) :
    WordText s s := by
  induction s with
  | nil => exact .nil
  | cons c s ih =>
    simp only [List.all_cons, Bool.and_eq_true, decide_eq_true_eq] at h
    exact .plain h.1.1 h.1.2 (ih h.2)

/-- The example is plain text … -/
theorem plainSrc_plain : PlainText plainSrc ["AT&T <3 two".toList, "x".toList] := by
  have w1 : WordText "AT&T".toList "AT&T".toList := plainWord (by decide)
  have w2 : WordText ('\\' :: ['<'] ++ ['3']) ('<' :: ['3']) := .esc (.self (by decide)) (plainWord (by decide))
  have w3 : WordText "two".toList "two".toList := plainWord (by decide)
  have w4 : WordText "x".toList "x".toList := plainWord (by decide)
  have l1 := LineText.more w1 (by decide) (sp := [' ']) (by unfold Blanks White; decide) (by decide) (.word w2 (by decide))
  have nf : ∀ {c : Char} {s : Str}, c ∉ ['"', '\'', '`'] → ¬ BeginsWithFence (c :: s) := by
    rintro c s hc ⟨r, h | h | h⟩ <;> simp at h <;> exact hc (by simp [h])
  have p1 := ParagraphText.more (a := []) (b := [' ']) l1 (nf (by decide)) (by unfold Blanks; simp) (by unfold Blanks White; decide)
    (.line (.word w3 (by decide)) (nf (by decide)))
  have p2 : ParagraphText "x".toList "x".toList := .line (.word w4 (by decide)) (nf (by decide))
  exact PlainText.mk (a := []) (b := []) (by simp) (.more (sep := "\n\n ".toList) p1 (by unfold White; decide) (by decide) (.one p2)) (by simp)

set_option maxRecDepth 20000 in
/-- … the tree is a tree of the grammar, and the output is as expected. -/
example : Conforms Char.isAlphanum plainSrc plainAst = true ∧
    convert (Ex.parser plainAst) plainSrc {} = .ok "<p>AT&amp;T &lt;3 two</p> <p>x</p>".toList := by
  decide +kernel

/-- The theorem applies to it. -/
example : ∃ out, convert (Ex.parser plainAst) plainSrc { xml := some true, failFast := some true } = .ok out ∧
    readMarkup true out = some (paragraphTokens ["AT&T <3 two".toList, "x".toList]) :=
  C49_plain_text Char.isAlphanum ascii_lettersAndDigits _ _ _ _ { xml := some true, failFast := some true } plainSrc_plain rfl (by decide +kernel) rfl (by simp) rfl rfl

end Mty
