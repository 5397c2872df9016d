import Verif.Proofs.Parse
import Verif.Proofs.Tokens
import Verif.Props.Grammar
import Verif.Props.RefParser

/-!
# C56: nothing of the source is skipped

The tokens of a tree of the grammar are the source: apart from white space, every character of the source belongs to exactly one of
them, in order. The reference parser of `Model/Parse.lean`, on which the tests of the repository are run, yields trees of the grammar,
so that everything that is proved for these trees applies to it.
-/

set_option autoImplicit false

namespace Mty
open Spec

/-- **C56.** Whichever tree of the grammar the parser chooses, the source consists of the tokens of the tree in order, with nothing
but white space before, between and after them. -/
theorem C56_covers (alnum : Char → Bool) (src : Str) (ast : Ast.Document) (h : Grammar.Conforms alnum src ast = true) :
    Covers src (treeTokens ast) :=
  Grammar.conforms_covers h

theorem covers_mem : ∀ (ts : List Range) (before rest : Str), CoversFrom before rest ts → ∀ (l r : Str) (c : Char), rest = l ++ c :: r →
    ¬ White c → ∃ t ∈ ts, t.start ≤ byteLen (before ++ l) ∧ byteLen (before ++ l ++ [c]) ≤ t.stop
  | [], before, rest, h, l, r, c, hr, hc => absurd (h c (by simp [hr])) hc
  | t :: ts, before, rest, h, l, r, c, hr, hc => by
    obtain ⟨w, x, rest', h1, h2, h3, h4⟩ := h
    have hh : (w ++ x) ++ rest' = l ++ c :: r := by rw [← hr, h1]; simp
    rcases List.append_eq_append_iff.1 hh with ⟨k, h5, h6⟩ | ⟨k, h5, h6⟩
    · obtain ⟨t', ht, h7, h8⟩ := covers_mem ts _ _ h4 k r c h6 hc
      refine ⟨t', List.mem_cons_of_mem _ ht, ?_, ?_⟩
      · rw [h5]; simpa using h7
      · rw [h5]; simpa using h8
    · cases k with
      | nil =>
        simp only [List.nil_append] at h6
        simp only [List.append_nil] at h5
        obtain ⟨t', ht, h7, h8⟩ := covers_mem ts _ _ h4 [] r c (by simpa using h6.symm) hc
        refine ⟨t', List.mem_cons_of_mem _ ht, ?_, ?_⟩
        · rw [← h5]; simpa using h7
        · rw [← h5]; simpa using h8
      | cons d k =>
        simp only [List.cons_append, List.cons.injEq] at h6
        obtain ⟨rfl, h6⟩ := h6
        refine ⟨t, List.mem_cons_self, ?_⟩
        rw [h3]
        rcases List.append_eq_append_iff.1 h5 with ⟨m, h7, h8⟩ | ⟨m, h7, h8⟩
        · subst h7 h8
          constructor <;> simp [byteLen_append, byteLen]
        · cases m with
          | nil =>
            simp only [List.nil_append] at h8
            simp only [List.append_nil] at h7
            subst h7 h8
            constructor <;> simp [byteLen_append, byteLen]
          | cons d m =>
            simp only [List.cons_append, List.cons.injEq] at h8
            exact absurd (h2 _ (by rw [h7, h8.1]; simp)) hc

/-- **C56, characters.** Every character of the source that is not white space is within a token of the tree. -/
theorem C56_characters (alnum : Char → Bool) (src : Str) (ast : Ast.Document) (h : Grammar.Conforms alnum src ast = true)
    (l r : Str) (c : Char) (hs : src = l ++ c :: r) (hc : ¬ White c) :
    ∃ t ∈ treeTokens ast, t.start ≤ byteLen l ∧ byteLen (l ++ [c]) ≤ t.stop := by
  simpa using covers_mem _ [] src (Grammar.conforms_covers h) l r c hs hc

/-- **C56, the reference parser.** The trees of the reference parser are trees of the grammar. -/
theorem C56_sound (alnum : Char → Bool) (src : Str) (ast : Ast.Document) (h : Grammar.parse alnum src = some ast) :
    Grammar.Conforms alnum src ast = true :=
  Grammar.parse_conforms h

/-- What is proved for trees of the grammar applies to every source that the reference parser accepts. -/
example (src : Str) (ast : Ast.Document) (h : Grammar.parse Char.isAlphanum src = some ast) :
    PositionsOk src ast ∧ Covers src (treeTokens ast) :=
  ⟨C12_grammar_positions _ src ast (C56_sound _ src ast h), C56_covers _ src ast (C56_sound _ src ast h)⟩

/-- The tokens of a document with a selector, attributes, an inline element, a comment and a block. -/
def tokensOf (src : Str) : Option (List Str) :=
  (Grammar.parse Char.isAlphanum src).map fun ast => (treeTokens ast).map fun r => r.slice src

set_option maxRecDepth 20000 in
example : tokensOf "a#b[c=d e]> f <(g> h)> <! i !> {\n  j \n}\n".toList =
    some (["a", "#", "b", "[", "c", "=", "d", "e", "]", ">", "f", "<(", "g", ">", "h", ")>", "<!", " i ", "!>", "{", "j", "}"].map
      String.toList) := by
  decide +kernel

/-- The remainder of the source is not dropped: a tree of the first line alone is no tree of the source. -/
example : Grammar.Conforms Char.isAlphanum "a\nb".toList ⟨.mk 0 [.mk 0 [.mk none 0 1 (Ex.seg 0 1)] 1] 1⟩ = false := by
  decide +kernel

end Mty
