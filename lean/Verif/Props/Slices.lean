import Verif.Proofs.SlicesRead
import Verif.Props.Grammar
import Verif.Props.Instances

/-!
# C74: reading the source while converting

The document holds ranges of the source, which are read when names are compared and when the document is written. Reading a
range that is not one of the source panics. `sourceSlices` (`Spec/Slices.lean`) lists the ranges that are read, and
`NodesRead src ns ns'` says that all of them can be read and that `ns'` has their characters.
-/

set_option autoImplicit false

namespace Mty
open Spec

/-- The ranges of texts are ranges of the document. -/
theorem sourceOf_eq (t : TextSlice) : sourceOf t = sliceRanges t := by cases t <;> rfl

theorem textLike_mem {t : TextLike} : Slices.Ok (· ∈ textLikeRanges t) (textLikeSlices t) := by
  match t with
  | .text t => simp [textLikeSlices, textLikeRanges, Slices.Ok, sourceOf_eq]
  | .comment s => simp [textLikeSlices, textLikeRanges, Slices.Ok, sourceOf_eq]
  | .space .lineEnd => exact Slices.ok_nil
  | .space .paragraphEnd => exact Slices.ok_nil
  | .space (.inline none) => exact Slices.ok_nil
  | .space (.inline (some s)) => simp [textLikeSlices, textLikeRanges, Slices.Ok, sourceOf_eq]

theorem ok_mono {V W : Range → Prop} (h : ∀ r, V r → W r) {l : List TextSlice} (hl : Slices.Ok V l) : Slices.Ok W l :=
  fun t ht r hr => h r (hl t ht r hr)

theorem selector_mem (s : Selector) : Slices.Ok (· ∈ selectorRanges s) (selectorSlices s) := by
  rw [Slices.sel_ok]
  refine ⟨?_, fun i hi => ?_⟩
  · cases ht : s.tag <;> simp [Tag.name, Slices.Ok, selectorRanges, tagRanges, ht, sourceOf_eq]
    intro r hr; exact .inr (.inl hr)
  · refine ok_mono (V := (· ∈ itemRanges i)) (fun r hr => ?_) ?_
    · simp only [selectorRanges, List.cons_append, List.mem_cons, List.mem_append, List.mem_flatMap]
      exact .inr (.inr ⟨i, hi, hr⟩)
    · cases i with
      | id r v => intro t ht r' hr'; simp [itemSlices] at ht; subst ht; simp [itemRanges, ← sourceOf_eq, hr']
      | cls r v => intro t ht r' hr'; simp [itemSlices] at ht; subst ht; simp [itemRanges, ← sourceOf_eq, hr']
      | attributes r l =>
        rw [itemSlices, Slices.ok_flatMap]
        intro a ha t ht r' hr'
        simp only [itemRanges, List.mem_cons, List.mem_flatMap]
        refine .inr ⟨a, ha, ?_⟩
        simp only [List.mem_cons] at ht
        rcases ht with rfl | ht
        · simp [← sourceOf_eq, hr']
        · simp only [List.cons_append, List.mem_cons, List.mem_append, List.mem_flatMap]
          exact .inr (.inr ⟨t, ht, sourceOf_eq t ▸ hr'⟩)

mutual
  theorem nodeOk_ranges : ∀ n : Node, Slices.NodeOk (· ∈ nodeRanges n) n
    | .text r t => ok_mono (fun r h => by simp [nodeRanges, h]) textLike_mem
    | .elem r h ch => by
      rw [Slices.elem_ok]
      refine ⟨fun s hs => ok_mono (fun r h => ?_) (selector_mem s), fun n hn => ?_⟩
      · simp only [nodeRanges, headRanges, List.cons_append, List.mem_cons, List.mem_append, List.mem_flatMap]
        exact .inr (.inr (.inr (.inl (.inr ⟨s, hs, h⟩))))
      · exact ok_mono (fun r h => by simp [nodeRanges, h]) (nodesOk_ranges ch n hn)
  theorem nodesOk_ranges : ∀ ns : List Node, ∀ n ∈ ns, Slices.NodeOk (· ∈ nodesRanges ns) n
    | [] => by simp
    | n :: ns => by
      have hn := nodeOk_ranges n
      intro x hx
      rcases List.mem_cons.1 hx with rfl | hx
      · exact ok_mono (fun r h => by simp [nodesRanges, h]) hn
      · exact ok_mono (fun r h => by simp [nodesRanges, h]) (nodesOk_ranges ns x hx)
end

/-- **C74, ranges.** Completing the page, special elements, inference, language and metadata let no range of the source be
read that is not in the document as it was built. -/
theorem C74_ranges (src : Str) (cfg : OutputConfig) (doc : Document) :
    ∀ r ∈ sourceSlices (transformDocument doc src cfg).nodes, r ∈ sourceSlices doc.nodes :=
  Slices.mem_sourceSlices.2 (Slices.transform_ok cfg src (Slices.mem_sourceSlices.1 fun _ h => h))

/-- **C74, inference.** The same for the names that are compared in inference: before it, and after it. -/
theorem C74_inference (src : Str) (cfg : OutputConfig) (doc : Document) :
    (∀ r ∈ sourceSlices (toInfer cfg src doc), r ∈ sourceSlices doc.nodes) ∧
    ∀ r ∈ sourceSlices (Infer.infer src (toInfer cfg src doc)), r ∈ sourceSlices doc.nodes := by
  have h := Slices.page_ok cfg src (Slices.mem_sourceSlices.1 fun _ (h : _ ∈ sourceSlices doc.nodes) => h)
  exact ⟨Slices.mem_sourceSlices.2 h, Slices.mem_sourceSlices.2 (Slices.infer_ok src h)⟩

/-- **C74, valid.** If the parser reports positions of the source, every range that is read, in the document as built and in
the one that is written, is a valid range of the source. -/
theorem C74_valid (src : Str) (ast : Ast.Document) (e e' : Errors) (doc : Document) (cfg : OutputConfig)
    (hp : PositionsOk src ast) (h : Build.fromAst src ast e = (some doc, e')) :
    (∀ r ∈ sourceSlices doc.nodes, ValidRange src r) ∧
    ∀ r ∈ sourceSlices (transformDocument doc src cfg).nodes, ValidRange src r := by
  have hd := (C12_ranges src ast e e' _ hp h).1 doc rfl
  have h1 : ∀ r ∈ sourceSlices doc.nodes, ValidRange src r :=
    Slices.mem_sourceSlices.2 fun n hn => ok_mono (fun r hr => hd r (by simp [docRanges, hr])) (nodesOk_ranges _ n hn)
  exact ⟨h1, fun r hr => h1 r (C74_ranges src cfg doc r hr)⟩

/-- **C74, written.** For every source with a tree of the grammar, everything the writer needs can be read: there is a document
with the characters in place of the ranges, and writing it, without the source, writes the same. -/
theorem C74_written (alnum : Char → Bool) (parse : Parser) (src : Str) (cfg : OutputConfig) (ast : Ast.Document) (out : Str)
    (hp : parse src = .ok ast) (hc : Grammar.Conforms alnum src ast = true) (h : convert parse src cfg = .ok out) :
    ∃ doc ns, Build.fromAst src ast (Errors.new cfg) = (some doc, Errors.new cfg) ∧
      NodesRead src (transformDocument doc src cfg).nodes ns ∧
      outputHtmlTo [] { transformDocument doc src cfg with nodes := ns } cfg = (out, true) := by
  obtain ⟨ast', doc, h1, -, h3, h4⟩ := (C08_ok_iff _ _ _ _).1 h
  rw [hp] at h1
  cases h1
  have hv := (C74_valid src ast _ _ doc cfg (Grammar.conforms_positions hc) h3).2
  obtain ⟨ns, hn⟩ := Slices.nodes_read (Slices.mem_sourceSlices.1 hv)
  refine ⟨doc, ns, h3, hn, ?_⟩
  rw [← h4]
  exact (Slices.output_read (d' := { transformDocument doc src cfg with nodes := ns }) cfg hn).symm

/-- The document of `Props/Instances.lean` can be read and written without its source. -/
example : ∃ doc ns out, convert RepoTests.parser usableSource {} = .ok out ∧
    NodesRead usableSource (transformDocument doc usableSource {}).nodes ns ∧
    outputHtmlTo [] { transformDocument doc usableSource {} with nodes := ns } {} = (out, true) := by
  obtain ⟨ast, doc, out, hp, hg, -, -, -, h⟩ := usable_meets {} usable_plain
  obtain ⟨doc, ns, -, h2, h3⟩ := C74_written _ _ _ _ _ _ hp hg h
  exact ⟨doc, ns, out, h, h2, h3⟩

/-- The ranges that are read for `a.b[c=é]> d` with a language and metadata, and those of the built document. -/
def rangesRead (src : Str) (cfg : OutputConfig) : Option (List Range × List Range) :=
  match RepoTests.parser src with
  | .ok ast => (Build.fromAst src ast (Errors.new cfg)).1.map fun doc =>
    (sourceSlices doc.nodes, sourceSlices (transformDocument doc src cfg).nodes)
  | .error _ => none

set_option maxRecDepth 20000 in
example : rangesRead "a.b[c=é]> d".toList { lang := some "en".toList, metadata := some { elements := true } } =
    some ([⟨0, 1⟩, ⟨2, 3⟩, ⟨4, 5⟩, ⟨6, 8⟩, ⟨10, 11⟩, ⟨11, 12⟩], [⟨0, 1⟩, ⟨2, 3⟩, ⟨4, 5⟩, ⟨6, 8⟩, ⟨10, 11⟩, ⟨11, 12⟩]) := by
  decide +kernel

/-- There is nothing to read after the end of the source, or within a character. -/
example (t : TextSlice) : ¬ TextRead "é".toList (.fromSource ⟨0, 1⟩) t ∧ ¬ TextRead "é".toList (.fromSource ⟨0, 3⟩) t := by
  have key : ∀ n, n ≠ 0 → n ≠ 2 → ¬ TextRead "é".toList (.fromSource ⟨0, n⟩) t := by
    intro n h0 h2 h
    generalize hr : TextSlice.fromSource ⟨0, n⟩ = x at h
    cases h with
    | given v => cases hr
    | source a m b hs =>
      simp only [TextSlice.fromSource.injEq, Range.mk.injEq] at hr
      have hl : byteLen (a ++ m ++ b) = 2 := by rw [← hs]; rfl
      have h1 := congrArg List.length hs
      simp only [List.length_append] at h1
      have : ("é".toList).length = 1 := rfl
      rw [this] at h1
      cases a with
      | cons c a => have := c.utf8Size_pos; simp [byteLen] at hr; omega
      | nil =>
        cases m with
        | nil => exact h0 (by simpa [byteLen] using hr)
        | cons c m =>
          have : m = [] ∧ b = [] := by
            simp only [List.length_nil, List.length_cons] at h1
            constructor <;> apply List.eq_nil_of_length_eq_zero <;> omega
          rw [this.1, this.2] at hl
          rw [this.1] at hr
          simp only [List.nil_append, List.append_nil] at hr hl
          omega
  exact ⟨key 1 (by decide) (by decide), key 3 (by decide) (by decide)⟩

end Mty
