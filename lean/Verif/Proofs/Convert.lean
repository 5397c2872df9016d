import Verif.Model.Convert
import Verif.Proofs.BuildOk

/-! # Lemmas about the public functions -/

namespace Mty
open Spec

theorem Errors.new_add_count (cfg : OutputConfig) (es : List SyntaxError) :
    ((Errors.new cfg).add es).count = es.length := by
  simp [Errors.new, Errors.add, Errors.count]

/-- What `convert_to_internal` does, by the result of the parser and the log of the builder. -/
theorem build_cases (src : Str) (ast : Ast.Document) :
    ∃ doc es, Logs (Build.fromAst src ast) doc es ∧ (es = [] ↔ WellFormed src ast) :=
  Build.fromAst_run src ast

theorem toConvertError_add_nil (cfg : OutputConfig) (src : Str) :
    ((Errors.new cfg).add []).toConvertError src = .ok () := by
  simp [Errors.new, Errors.add, Errors.toConvertError]

theorem toConvertError_add (cfg : OutputConfig) (src : Str) {es : List SyntaxError} (h : es ≠ []) :
    ((Errors.new cfg).add es).toConvertError src = .error (.syntax es src) := by
  obtain ⟨e, es, rfl⟩ := List.exists_cons_of_ne_nil h
  simp [Errors.new, Errors.add, Errors.toConvertError]

theorem toConvertError_unknown_nil (cfg : OutputConfig) (src : Str) :
    (BM.unknownErr (Errors.new cfg)).2.toConvertError src = .error .unknown := by
  simp only [BM.unknownErr]
  cases h : (Errors.new cfg).failFast <;> simp [Errors.new, Errors.toConvertError]

theorem toConvertError_unknown (cfg : OutputConfig) (src : Str) {es : List SyntaxError} (h : es ≠ []) :
    (BM.unknownErr ((Errors.new cfg).add es)).2.toConvertError src = .error (.syntax es src) := by
  obtain ⟨e, es, rfl⟩ := List.exists_cons_of_ne_nil h
  simp only [BM.unknownErr]
  cases h : (Errors.new cfg).failFast <;>
    simp_all [Errors.add, Errors.new, Errors.toConvertError]

/-- The parser fails. -/
theorem internal_parse_error {parse : Parser} {src : Str} {pe : Build.ParseError}
    (h : parse src = .error pe) (cfg : OutputConfig) (forgive : Bool) :
    convertToInternal parse src cfg forgive = ([], .error (.syntax [pe.toSyntax] src)) := by
  have : Build.parseDocument parse src (Errors.new cfg) =
      (none, (Errors.new cfg).add [pe.toSyntax]) := by
    simp only [Build.parseDocument, h]
    show BM.bind (BM.syntaxErr [pe.toSyntax]) (fun _ => BM.fail) (Errors.new cfg) = _
    simp only [BM.bind, BM.syntaxErr]
    cases hf : (Errors.new cfg).failFast <;> simp [BM.fail, Errors.add, hf]
  simp only [convertToInternal, this]
  rw [toConvertError_add cfg src (by simp)]

/-- The document is well-formed. -/
theorem internal_ok {parse : Parser} {src : Str} {ast : Ast.Document} {doc : Document}
    (h : parse src = .ok ast) (hl : Logs (Build.fromAst src ast) doc []) (cfg : OutputConfig)
    (forgive : Bool) :
    convertToInternal parse src cfg forgive =
      match outputHtmlTo src (transformDocument doc src cfg) cfg with
      | (out, true) => (out, .ok ())
      | (out, false) => (out, .error .unknown) := by
  have : Build.parseDocument parse src (Errors.new cfg) = (some doc, Errors.new cfg) := by
    simp only [Build.parseDocument, h]
    exact hl.fastOk rfl _
  have hc : (Errors.new cfg).isEmpty = true := by simp [Errors.isEmpty, Errors.new, Errors.count]
  simp only [convertToInternal, this, hc, Bool.true_or, if_true]
  rcases ho : outputHtmlTo src (transformDocument doc src cfg) cfg with ⟨out, ok⟩
  cases ok with
  | true =>
    have := toConvertError_add_nil cfg src
    simp only [Errors.add_nil] at this
    simp [this]
  | false => simp [toConvertError_unknown_nil]

/-- The document is not well-formed. -/
theorem internal_bad {parse : Parser} {src : Str} {ast : Ast.Document} {doc : Document}
    {es : List SyntaxError} (h : parse src = .ok ast) (hl : Logs (Build.fromAst src ast) doc es)
    (hn : es ≠ []) (cfg : OutputConfig) (forgive : Bool) :
    ∃ es', es' ≠ [] ∧ es' <+: es ∧ (cfg.failFast.getD false = false → es' = es) ∧
      convertToInternal parse src cfg forgive =
        (if forgive && !cfg.failFast.getD false then
          (outputHtmlTo src (transformDocument doc src cfg) cfg).1 else [],
          .error (.syntax es' src)) := by
  cases hf : cfg.failFast.getD false with
  | true =>
    obtain ⟨es', h1, h2, h3⟩ := hl.fast hn (Errors.new cfg) hf
    refine ⟨es', h1, h2, by simp, ?_⟩
    have : Build.parseDocument parse src (Errors.new cfg) =
        (none, (Errors.new cfg).add es') := by
      simp only [Build.parseDocument, h]; exact h3
    simp only [convertToInternal, this]
    rw [toConvertError_add cfg src h1]
    simp
  | false =>
    refine ⟨es, hn, List.prefix_refl _, fun _ => rfl, ?_⟩
    have : Build.parseDocument parse src (Errors.new cfg) =
        (some doc, (Errors.new cfg).add es) := by
      simp only [Build.parseDocument, h]; exact hl.slow _ hf
    have hc : ((Errors.new cfg).add es).isEmpty = false := by
      simp only [Errors.isEmpty, Errors.new_add_count]
      simpa using hn
    simp only [convertToInternal, this, hc, Bool.false_or]
    cases forgive with
    | false => simp [toConvertError_add cfg src hn]
    | true =>
      rcases ho : outputHtmlTo src (transformDocument doc src cfg) cfg with ⟨out, ok⟩
      cases ok <;> simp [toConvertError_add cfg src hn, toConvertError_unknown cfg src hn]

/-- `convert` is determined by `convertToInternal`. -/
theorem convert_eq {parse : Parser} {src : Str} {cfg : OutputConfig} {out : Str}
    {r : Except ConvertError Unit} (h : convertToInternal parse src cfg false = (out, r)) :
    convert parse src cfg = match r with
      | .ok () => .ok out
      | .error e => .error e := by cases r <;> simp [convert, h]

theorem forgiving_eq {parse : Parser} {src : Str} {cfg : OutputConfig} {out : Str}
    {r : Except ConvertError Unit} (h : convertToInternal parse src cfg true = (out, r)) :
    convertForgiving parse src cfg = match r with
      | .ok () => .ok out
      | .error e => if out.isEmpty then .error (none, e) else .error (some out, e) := by
  cases r <;> simp [convertForgiving, h]

theorem convert_parse_error {parse : Parser} {src : Str} {pe : Build.ParseError}
    (h : parse src = .error pe) (cfg : OutputConfig) :
    convert parse src cfg = .error (.syntax [pe.toSyntax] src) :=
  convert_eq (internal_parse_error h cfg false)

theorem convert_ok {parse : Parser} {src : Str} {ast : Ast.Document} {doc : Document}
    (h : parse src = .ok ast) (hl : Logs (Build.fromAst src ast) doc []) (cfg : OutputConfig) :
    convert parse src cfg =
      match outputHtmlTo src (transformDocument doc src cfg) cfg with
      | (out, true) => .ok out
      | (_, false) => .error .unknown := by
  have := internal_ok h hl cfg false
  rcases ho : outputHtmlTo src (transformDocument doc src cfg) cfg with ⟨out, ok⟩
  rw [ho] at this
  cases ok <;> exact convert_eq this

theorem convert_bad {parse : Parser} {src : Str} {ast : Ast.Document} {doc : Document}
    {es : List SyntaxError} (h : parse src = .ok ast) (hl : Logs (Build.fromAst src ast) doc es)
    (hn : es ≠ []) (cfg : OutputConfig) :
    ∃ es', es' ≠ [] ∧ es' <+: es ∧ (cfg.failFast.getD false = false → es' = es) ∧
      convert parse src cfg = .error (.syntax es' src) := by
  obtain ⟨es', h1, h2, h3, h4⟩ := internal_bad h hl hn cfg false
  exact ⟨es', h1, h2, h3, convert_eq h4⟩

/-- `transform_document` does not look at `fail_fast`. -/
theorem transform_failFast (doc : Document) (src : Str) (cfg : OutputConfig) (b : Option Bool) :
    transformDocument doc src { cfg with failFast := b } = transformDocument doc src cfg := rfl

/-- The context with another `fail_fast`. -/
def OutCx.ff (cx : OutCx) (b : Option Bool) : OutCx := { cx with cfg := { cx.cfg with failFast := b } }

theorem writeAttributes_ff (cx : OutCx) (b : Option Bool) : ∀ l,
    writeAttributes (cx.ff b) l = writeAttributes cx l
  | [] => rfl
  | (n, v) :: l => by
    simp only [writeAttributes, writeAttributes_ff cx b l]; rfl

theorem writeMoreClasses_ff (cx : OutCx) (b : Option Bool) : ∀ l,
    writeMoreClasses (cx.ff b) l = writeMoreClasses cx l
  | [] => rfl
  | c :: l => by
    simp only [writeMoreClasses, writeMoreClasses_ff cx b l]; rfl

theorem writeOpenTag_ff (cx : OutCx) (b : Option Bool) (t : Str) (s : Selector) (c : Bool) :
    writeOpenTag (cx.ff b) t s c = writeOpenTag cx t s c := by
  simp only [writeOpenTag, writeAttributes_ff, writeMoreClasses_ff]; rfl

theorem writeOpenTags_ff (cx : OutCx) (b : Option Bool) (c : Bool) : ∀ l,
    writeOpenTags (cx.ff b) c l = writeOpenTags cx c l
  | [] => rfl
  | (t, s) :: l => by
    simp only [writeOpenTags, writeOpenTags_ff cx b c l, writeOpenTag_ff]; rfl

theorem writeCloseTags_ff (cx : OutCx) (b : Option Bool) (c : Bool) : ∀ l,
    writeCloseTags (cx.ff b) c l = writeCloseTags cx c l
  | [] => rfl
  | (t, s) :: l => by
    simp only [writeCloseTags, writeCloseTags_ff cx b c l]; rfl

theorem OutCx.indent_ff (cx : OutCx) (b : Option Bool) (n : Nat) :
    (cx.ff b).indent n = (cx.indent n).ff b := by
  unfold OutCx.indent
  show (if (!cx.fmtInline && cx.cfg.indent.isSome) = true then _ else _) = _
  split <;> rfl

theorem elementAct_ff (cx : OutCx) (b : Option Bool) (h : EHead) (e : Bool) (c : OutCx → Act)
    (hc : ∀ cx', c (cx'.ff b) = c cx') : elementAct (cx.ff b) h e c = elementAct cx h e c := by
  have hin : (cx.ff b).inContent h = (cx.inContent h).ff b := rfl
  simp only [elementAct, hin, OutCx.indent_ff, hc, writeOpenTags_ff, writeCloseTags_ff]
  rfl

mutual
  theorem processNode_ff (b : Option Bool) : ∀ (n : Node) (cx : OutCx),
      processNode n (cx.ff b) = processNode n cx
    | .text _ t, cx => by simp only [processNode]; cases t <;> rfl
    | .elem _ h ch, cx => by
      simp only [processNode]
      exact elementAct_ff cx b h _ _ fun cx' => by rw [nodeActs_ff b ch cx']
  theorem nodeActs_ff (b : Option Bool) : ∀ (ns : List Node) (cx : OutCx),
      nodeActs ns (cx.ff b) = nodeActs ns cx
    | [], cx => by simp only [nodeActs]
    | n :: ns, cx => by simp only [nodeActs, processNode_ff b n, nodeActs_ff b ns]
end

/-- The writer does not look at `fail_fast`. -/
theorem output_failFast (src : Str) (doc : Document) (cfg : OutputConfig) (b : Option Bool) :
    outputHtmlTo src doc { cfg with failFast := b } = outputHtmlTo src doc cfg := by
  have := nodeActs_ff b doc.nodes
    { cfg, src, indentLevel := 0, fmtInline := false, isRaw := false }
  simp only [OutCx.ff] at this
  simp only [outputHtmlTo, processContent, this]
  rfl

end Mty
