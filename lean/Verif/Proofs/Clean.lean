import Verif.Proofs.Markup
import Verif.Props.Infer

/-! # Which documents can be read back -/

set_option autoImplicit false

namespace Mty
open Spec

/-! ## Nesting -/

theorem balanced_append {void : Str → Bool} {a b : List Token} (h1 : Balanced void a) (h2 : Balanced void b) :
    Balanced void (a ++ b) := by
  induction h1 with
  | nil => exact h2
  | char _ ih => exact .char ih
  | comment _ ih => exact .comment ih
  | empty _ ih => exact .empty ih
  | void h _ ih => exact .void h ih
  | pair h h3 _ _ ih => simpa using Balanced.pair h h3 ih

theorem balanced_chars (void : Str → Bool) (s : Str) : Balanced void (s.map .char) := by
  induction s with
  | nil => exact .nil
  | cons c s ih => exact .char ih

theorem break_balanced {void : Str → Bool} {indent : Option Str} {inl : Bool} {toks : List Token}
    (h : Break indent inl toks) : Balanced void toks := by
  cases h with
  | none => exact .nil
  | line => exact balanced_chars _ _

theorem gap_balanced {void : Str → Bool} {indent : Option Str} {inl a b : Bool} {toks : List Token}
    (h : Gap indent inl a b toks) : Balanced void toks := by
  cases h with
  | none => exact .nil
  | line h => exact break_balanced h

theorem separator_balanced {void : Str → Bool} {indent : Option Str} {src : Str} {inl : Bool} {s : Space} {toks : List Token}
    (h : Separator indent src inl s toks) : Balanced void toks := by
  cases h with
  | written => exact balanced_chars _ _
  | blank => exact .char .nil
  | lineEnd => exact .char .nil
  | paragraphEnd => exact .char .nil
  | brokenLine h => exact break_balanced h
  | brokenParagraph h => exact break_balanced h

theorem readsAs_balanced {xml : Bool} {src : Str} {indent : Option Str} {inl ws ws' : Bool} {ns : List Node}
    {toks : List Token} (h : ReadsAs xml src indent inl ws ns toks ws') : Balanced (voidName xml) toks := by
  induction h with
  | nil => exact .nil
  | dropped _ ih => exact ih
  | space h _ ih => exact balanced_append (separator_balanced h) ih
  | text _ _ _ ih => exact balanced_append (balanced_chars _ _) ih
  | comment _ _ ih => exact .comment ih
  | unnamed _ _ _ ih1 ih2 => exact balanced_append ih1 ih2
  | empty _ _ _ _ _ ih => exact .empty ih
  | void _ _ h _ ga _ gb _ ih1 ih2 =>
    exact .void h (balanced_append (balanced_append (balanced_append (gap_balanced ga) ih1) (gap_balanced gb)) ih2)
  | named _ _ h _ _ ga _ gb _ ih1 ih2 =>
    exact .pair h (balanced_append (balanced_append (gap_balanced ga) ih1) (gap_balanced gb)) ih2

/-! ## The document -/

/-- What is written before the nodes. -/
def doctypeTokens (cfg : OutputConfig) : List Token :=
  if cfg.completePage.getD false then [.doctype "DOCTYPE html".toList, .char '\n'] else []

theorem document_reads {src : Str} {doc : Document} {cfg : OutputConfig}
    (hi : ∀ i, cfg.indent = some i → Blank i) (hr : ∀ n ∈ doc.nodes, Readable cfg.isXml src false n)
    (hok : (outputHtmlTo src doc cfg).2 = true) :
    ∃ toks b ws ws', readMarkup cfg.isXml (outputHtmlTo src doc cfg).1 = some (doctypeTokens cfg ++ (toks ++ b)) ∧
      ReadsAs cfg.isXml src cfg.indent false true (inner doc.nodes) toks ws ∧ Gap cfg.indent false ws ws' b := by
  let cx : OutCx := { cfg, src, indentLevel := 0, fmtInline := false, isRaw := false }
  let d : Act := if cfg.completePage.getD false then Act.write "<!DOCTYPE html>\n".toList else Act.skip
  have e : outputHtmlTo src doc cfg = ((Act.seq d (Act.seq (processContent doc.nodes cx) (line cx)) true).out,
      (Act.seq d (Act.seq (processContent doc.nodes cx) (line cx)) true).ok) := rfl
  have hd : (d true).ok = true ∧ (d true).fs = true ∧ readRun cfg.isXml .data (d true).out = some (.data, doctypeTokens cfg) := by
    cases hc : cfg.completePage.getD false with
    | true =>
      simp only [d, hc, if_true, doctypeTokens]
      refine ⟨rfl, rfl, ?_⟩
      cases cfg.isXml <;> decide +kernel
    | false =>
      simp only [d, hc, doctypeTokens]
      exact ⟨rfl, rfl, rfl⟩
  rw [e] at hok ⊢
  simp only at hok ⊢
  rw [seq_ok, seq_ok, hd.2.1] at hok
  obtain ⟨-, h1, h2⟩ := hok
  rw [seq_out hd.1, hd.2.1, seq_out h1]
  simp only
  rw [processContent, contentActs_eq] at h1 h2 ⊢
  obtain ⟨toks, r1, a1⟩ := all_reads cx hi (inner doc.nodes) (fun n _ => node_reads n)
    (fun n hn => hr n (inner_mem hn)) true h1
  obtain ⟨-, b, r2, g2⟩ := line_gap (cx := cx) hi (Act.all ((inner doc.nodes).map fun n => processNode n cx) true).fs
  refine ⟨toks, b, _, _, ?_, a1, g2⟩
  have := readRun_trans hd.2.2 (readRun_trans r1 r2)
  rw [readMarkup, this]

/-! ## Trees -/

theorem clean_mono {xml : Bool} {src : Str} {raw : Bool} {t : Tree} (h : Clean xml src raw t) :
    ∀ raw', (raw' = true → raw = true) → Clean xml src raw' t := by
  induction h with
  | space h => intro _ _; exact .space h
  | text h1 h2 =>
    intro raw' hr
    refine .text h1 fun hx => ⟨(h2 hx).1, ?_⟩
    cases raw' with
    | false => rfl
    | true => rw [hr rfl] at h2; exact (h2 hx).2
  | comment => intro _ _; exact .comment
  | elem h1 h2 _ ih =>
    intro raw' hr
    refine .elem h1 h2 fun c hc => ih c hc _ ?_
    simp only [Bool.or_eq_true]
    rintro ((h | h) | h)
    · exact .inl (.inl (hr h))
    · exact .inl (.inr h)
    · exact .inr h

/-- Rawness inside of a chain of elements. -/
def chainRaw (xml raw : Bool) (src : Str) (ss : List Selector) : Bool :=
  raw || ss.any fun s => rawName xml (selOf src s).1

theorem chainTree_clean {xml : Bool} {src : Str} (h : EHead) (kids : List Tree) : ∀ (ss : List Selector) (raw : Bool),
    Clean xml src raw (chainTree src h ss kids) ↔
      (∀ s ∈ ss, ∀ n, (selOf src s).1 = some n → SafeName n) ∧
      (∀ s ∈ ss, ∀ a ∈ attributesOf s.items, ∀ x, Unescapes Accepted (a.name.asStr src) x → SafeAttrName x) ∧
      ∀ c ∈ kids, Clean xml src (chainRaw xml (raw || h.isRaw) src ss) c
  | [], raw => by
    rw [chainTree]
    constructor
    · intro hc
      cases hc with
      | elem h1 h2 h3 =>
        refine ⟨by simp, by simp, fun c hc => ?_⟩
        have := h3 c hc
        simpa [chainRaw, rawName] using this
    · rintro ⟨-, -, h3⟩
      refine .elem (by simp) (by simp) fun c hc => ?_
      simpa [chainRaw, rawName] using h3 c hc
  | [s], raw => by
    rw [chainTree]
    constructor
    · intro hc
      cases hc with
      | elem h1 h2 h3 =>
        refine ⟨?_, ?_, fun c hc => ?_⟩
        · intro s' hs' n hn
          simp only [List.mem_singleton] at hs'
          subst hs'
          exact h1 n hn
        · intro s' hs'
          simp only [List.mem_singleton] at hs'
          subst hs'
          exact h2 _ rfl
        · have := h3 c hc
          simpa [chainRaw] using this
    · rintro ⟨h1, h2, h3⟩
      refine .elem ?_ ?_ fun c hc => ?_
      · intro n hn; exact h1 s (by simp) n hn
      · intro s' hs'; cases hs'; exact h2 s (by simp)
      · simpa [chainRaw] using h3 c hc
  | s :: s2 :: ss, raw => by
    rw [chainTree]
    have ih := chainTree_clean (xml := xml) (src := src) h kids (s2 :: ss)
    constructor
    · intro hc
      cases hc with
      | elem h1 h2 h3 =>
        have := (ih _).1 (h3 _ (List.mem_singleton_self _))
        obtain ⟨g1, g2, g3⟩ := this
        refine ⟨?_, ?_, fun c hc => ?_⟩
        · intro s' hs' n hn
          rcases List.mem_cons.1 hs' with rfl | hs'
          · exact h1 n hn
          · exact g1 s' hs' n hn
        · intro s' hs'
          rcases List.mem_cons.1 hs' with rfl | hs'
          · exact h2 _ rfl
          · exact g2 s' hs'
        · refine clean_mono (g3 c hc) _ ?_
          simp only [chainRaw, List.any_cons, Bool.or_eq_true, Option.bind_some]
          tauto
    · rintro ⟨h1, h2, h3⟩
      refine .elem ?_ ?_ ?_
      · intro n hn; exact h1 s (by simp) n hn
      · intro s' hs'; cases hs'; exact h2 s (by simp)
      · intro c hc
        rw [List.mem_singleton] at hc
        subst hc
        refine (ih _).2 ⟨fun s' hs' => h1 s' (List.mem_cons_of_mem _ hs'), fun s' hs' => h2 s' (List.mem_cons_of_mem _ hs'), fun c hc =>
          clean_mono (h3 c hc) _ ?_⟩
        simp only [chainRaw, List.any_cons, Bool.or_eq_true, Option.bind_some]
        tauto

/-- After inference: readable trees are readable documents. -/
theorem clean_readable {xml : Bool} {src : Str} {n : Node} (hs : SingleSelectors n) :
    ∀ raw, Clean xml src raw (treeOf src n) → Readable xml src raw n := by
  induction hs with
  | @text r t =>
    intro raw hc
    rw [treeOf] at hc
    cases hc with
    | space h => exact .space h
    | text h1 h2 => exact .text h1 h2
    | comment => exact .comment
  | @elem r h ch hl _ ih =>
    intro raw hc
    rw [treeOf, chainTree_clean] at hc
    obtain ⟨h1, h2, h3⟩ := hc
    refine .elem hl ?_ h2 fun c hc => ih c hc _ (clean_mono (h3 (treeOf src c) ?_) _ ?_)
    · intro s hs n hn
      exact h1 s hs _ (by simp [selOf, hn])
    · rw [forestOf_eq]; exact List.mem_map_of_mem hc
    · simp only [chainRaw, Bool.or_eq_true]; tauto

/-! ## Inference -/

theorem nameIn_safe (c : Context) (f : Option Form) (fi la th : Bool) (n : String) (h : nameIn c f fi la th = some n)
    (hn : n ≠ "") : SafeName n.toList ∧ ∀ xml, rawName xml (some n.toList) = false := by
  have key : n ∈ ["p", "div", "span", "li", "tr", "th", "td", "dt", "dd", "input", "optgroup", "option", "col",
      "area", "img", "source", "summary", "legend", "title", "body", "head"] := by
    revert h
    cases c <;> rcases f with _ | _ | _ | _ <;> cases fi <;> cases la <;> cases th <;> simp [nameIn] <;>
      (rintro rfl; first | decide | exact absurd rfl hn)
  have all : ∀ m ∈ ["p", "div", "span", "li", "tr", "th", "td", "dt", "dd", "input", "optgroup", "option", "col",
      "area", "img", "source", "summary", "legend", "title", "body", "head"],
      (m.toList.head?.any nameStart && m.toList.all nameChar) = true ∧
        ∀ xml, rawName xml (some m.toList) = false := by decide +kernel
  obtain ⟨h1, h2⟩ := all n key
  refine ⟨?_, h2⟩
  simp only [Bool.and_eq_true] at h1
  cases hl : n.toList with
  | nil => simp [hl] at h1
  | cons c s =>
    rw [hl] at h1
    refine ⟨c, s, rfl, by simpa using h1.1, fun d hd => ?_⟩
    have := List.all_eq_true.1 h1.2 d (List.mem_cons_of_mem _ hd)
    exact this

theorem contextInside_raw (n : Option Str) (f : Option Form) (xml : Bool) (hx : xml = false)
    (h : contextInside n f = .raw) : rawName xml n = true := by
  subst hx
  unfold contextInside at h
  cases hb : n.bind contextOfName with
  | none =>
    rw [hb] at h
    rcases f with _ | _ | _ | _ <;> simp at h
  | some c =>
    rw [hb] at h
    simp only at h
    subst h
    cases n with
    | none => simp at hb
    | some m =>
      simp only [Option.bind_some] at hb
      have : m = "script".toList ∨ m = "style".toList := by
        unfold contextOfName at hb
        dsimp only at hb
        iterate 15 (rw [ite_eq_iff] at hb; rcases hb with ⟨_, hb⟩ | ⟨_, hb⟩; · cases hb)
        rw [ite_eq_iff] at hb
        rcases hb with ⟨hb, _⟩ | ⟨_, hb⟩
        · simpa using hb
        · cases hb
      rcases this with rfl | rfl <;> rfl

/-- Whether an element is raw does not matter in XML. -/
theorem clean_xml {src : Str} {raw : Bool} {t : Tree} (h : Clean true src raw t) : ∀ raw', Clean true src raw' t := by
  induction h with
  | space h => intro _; exact .space h
  | text h1 h2 => intro _; exact .text h1 (fun h => by cases h)
  | comment => intro _; exact .comment
  | elem h1 h2 _ ih => intro raw'; exact .elem h1 h2 fun c hc => ih c hc _

theorem inferTree_clean {xml : Bool} {src : Str} : ∀ (t : Tree) (raw : Bool), Clean xml src raw t →
    ∀ (c : Context) (p g : Option Str) (fi la : Bool), Clean xml src raw (inferTree c p g fi la t) := by
  refine Tree.ind (fun t raw h c p g fi la => by rw [inferTree]; exact h) ?_
  intro f raw' fmt sel ch ih raw h c p g fi la
  cases h with
  | elem h1 h2 h3 =>
    rw [inferTree]
    have key : (∀ n, (namedSel c f fi la (decide (g = some "thead".toList)) sel).bind (·.1) = some n → SafeName n) ∧
        (∀ s, namedSel c f fi la (decide (g = some "thead".toList)) sel = some s → ∀ a ∈ attributesOf s.2, ∀ x,
          Unescapes Accepted (a.name.asStr src) x → SafeAttrName x) ∧
        (rawName xml ((namedSel c f fi la (decide (g = some "thead".toList)) sel).bind (·.1)) = true →
          rawName xml (sel.bind (·.1)) = true) := by
      cases hn : sel.bind (·.1) with
      | some n =>
        obtain ⟨s, rfl, hs⟩ := Option.bind_eq_some_iff.1 hn
        obtain ⟨sn, items⟩ := s
        simp only at hs
        subst hs
        rw [namedSel_named]
        exact ⟨h1, h2, fun h => h⟩
      | none =>
        rcases namedSel_cases c f fi la (decide (g = some "thead".toList)) sel hn with ⟨_, e⟩ | ⟨_, e⟩ | ⟨t, ht, hnm, e⟩
        · rw [e]; exact ⟨h1, h2, fun h => by rw [hn] at h; exact h⟩
        · rw [e]; exact ⟨by simp, by simp, by simp [rawName]⟩
        · rw [e]
          obtain ⟨g1, g2⟩ := nameIn_safe _ _ _ _ _ _ hnm ht
          refine ⟨?_, ?_, ?_⟩
          · intro n hn'; simp at hn'; subst hn'; exact g1
          · intro s hs
            cases hs
            cases sel with
            | none => simp [attributesOf]
            | some s => exact h2 s rfl
          · intro h; simp only [Option.bind_some] at h; rw [g2 xml] at h; cases h
    obtain ⟨k1, k2, k3⟩ := key
    refine .elem k1 k2 ?_
    generalize hsel : namedSel c f fi la (decide (g = some "thead".toList)) sel = sel' at *
    cases hx : xml with
    | true =>
      subst hx
      exact inferForest_forall _ _ _ _ _ fun t ht fi la =>
        clean_xml (ih t ht _ (h3 t ht) _ _ _ fi la) _
    | false =>
      refine inferForest_forall _ _ _ _ _ fun t ht fi la => ?_
      rw [← hx]
      have := ih t ht _ (h3 t ht) (contextInside (sel'.bind (·.1)) f) (sel'.bind (·.1)) p fi la
      refine clean_mono this _ ?_
      simp only [Bool.or_eq_true, decide_eq_true_eq]
      rintro ((h | h | h) | h)
      · exact .inl (.inl h)
      · exact .inl (.inr h)
      · exact .inr (k3 (contextInside_raw _ _ xml hx h))
      · exact .inr (k3 h)

/-! ## Special tags -/

theorem safeName_of_check {n : Str} (h : (n.head?.any nameStart && n.all nameChar) = true) : SafeName n := by
  cases n with
  | nil => simp at h
  | cons c s =>
    simp only [Bool.and_eq_true, List.head?_cons, Option.any_some, List.all_cons] at h
    exact ⟨c, s, rfl, h.1, fun d hd => List.all_eq_true.1 h.2.2 d hd⟩

theorem specialNode_clean {xml : Bool} {src : Str} {c : SpecialTagConfig} (hc : SafeTags xml c) {n : Node}
    (hf : Fresh n) : ∀ raw, Clean xml src raw (treeOf src n) → Clean xml src raw (treeOf src (specialNode c n)) := by
  induction hf with
  | text => intro raw h; rw [specialNode]; exact h
  | @elem r h ch h1 h2 h4 h3 ih =>
    intro raw hcl
    have ht := specialNode_tagged src c _ (Fresh.elem (r := r) h1 h2 h4 h3)
    rw [specialNode] at ht ⊢
    generalize hh : specialHead c h = h' at ht
    generalize hk : specialNodes c ch = ch' at ht
    cases ht with
    | elem t1 t2 t3 t4 _ =>
      rw [treeOf, chainTree_clean] at hcl ⊢
      obtain ⟨c1, c2, c3⟩ := hcl
      have hraw : h'.isRaw = h.isRaw := by rw [t4]
      have kids : ∀ raw', (∀ t ∈ forestOf src ch, Clean xml src raw' t) → ∀ t ∈ forestOf src ch', Clean xml src raw' t := by
        intro raw' hcl t ht
        subst hk
        rw [forestOf_eq] at ht hcl
        obtain ⟨n, hn, rfl⟩ := List.mem_map.1 ht
        rw [specialNodes_eq] at hn
        obtain ⟨m, hm, rfl⟩ := List.mem_map.1 hn
        exact ih m hm _ (hcl _ (List.mem_map_of_mem hm))
      have wrap : ∀ names : List Str, (∀ m ∈ names, m = [] ∨ (SafeName m ∧ rawName xml (some m) = false)) →
          h'.selectors.map (selOf src) = wrapIn names → h.selectors = [] →
          (∀ s ∈ h'.selectors, ∀ n, (selOf src s).1 = some n → SafeName n) ∧
          (∀ s ∈ h'.selectors, ∀ a ∈ attributesOf s.items, ∀ x, Unescapes Accepted (a.name.asStr src) x → SafeAttrName x) ∧
          ∀ t ∈ forestOf src ch', Clean xml src (chainRaw xml (raw || h'.isRaw) src h'.selectors) t := by
        intro names hn hw hs
        have key : ∀ s ∈ h'.selectors, ∃ m, SafeName m ∧ rawName xml (some m) = false ∧ selOf src s = (some m, []) := by
          intro s hs'
          have := List.mem_map_of_mem (f := selOf src) hs'
          rw [hw, wrapIn] at this
          obtain ⟨m, hm, e⟩ := List.mem_map.1 this
          rw [List.mem_filter] at hm
          rcases hn m hm.1 with rfl | ⟨g1, g2⟩
          · simp at hm
          · exact ⟨m, g1, g2, e.symm⟩
        refine ⟨?_, ?_, ?_⟩
        · intro s hs' n hn
          obtain ⟨m, g1, g2, e⟩ := key s hs'
          rw [e] at hn; cases hn; exact g1
        · intro s hs'
          obtain ⟨m, g1, g2, e⟩ := key s hs'
          have : s.items = [] := congrArg Prod.snd e
          simp [this, attributesOf]
        · refine kids _ fun t ht => clean_mono (c3 t ht) _ ?_
          rw [hraw]
          simp only [chainRaw, Bool.or_eq_true, hs, List.any_nil, List.any_eq_true]
          rintro (g | ⟨s, hs', g⟩)
          · exact .inl g
          · obtain ⟨m, g1, g2, e⟩ := key s hs'
            rw [e] at g
            simp only at g
            rw [g2] at g
            cases g
      by_cases hsp : ∃ k, h.ty = .special k
      · obtain ⟨k, hk⟩ := hsp
        exact wrap [configuredTag c k] (by simpa using hc k) (t1 k hk) (h1 (.inl ⟨k, hk⟩))
      · by_cases hm : h.ty = .multiline .code
        · refine wrap _ ?_ (t2 hm) (h1 (.inr ⟨_, hm⟩))
          intro m hm
          simp only [List.mem_cons, List.not_mem_nil, or_false] at hm
          rcases hm with rfl | rfl
          · have := hc .emphasis
            unfold configuredTag at this
            cases he : c.emphasis with
            | some v => rw [he] at this; simpa using this
            | none => exact .inr ⟨safeName_of_check (by decide), by cases xml <;> rfl⟩
          · exact hc .code
        · have hs := t3 (fun k hk => hsp ⟨k, hk⟩) hm
          rw [hs, hraw]
          exact ⟨c1, c2, kids _ c3⟩

/-! ## Completed pages -/

theorem forest_clean_iff {xml : Bool} {src : Str} {raw : Bool} {ns : List Node} :
    (∀ t ∈ forestOf src ns, Clean xml src raw t) ↔ ∀ n ∈ ns, Clean xml src raw (treeOf src n) := by
  rw [forestOf_eq]; simp

theorem childrenOf_clean {xml : Bool} {src : Str} {raw : Bool} {n : Node} (h : Clean xml src raw (treeOf src n)) :
    ∀ c ∈ childrenOf n, Clean xml src raw (treeOf src c) := by
  cases n with
  | text => simp [childrenOf]
  | elem r hd ch =>
    rw [treeOf, chainTree_clean] at h
    rw [childrenOf]
    intro c hc
    refine clean_mono (forest_clean_iff.1 h.2.2 c hc) _ ?_
    simp only [chainRaw, Bool.or_eq_true]
    tauto

theorem plainTree_clean {xml : Bool} {src : Str} (name : String) (hn : (name.toList.head?.any nameStart && name.toList.all nameChar) = true)
    (hr : rawName xml (some name.toList) = false) {kids : List Tree} (hk : ∀ t ∈ kids, Clean xml src false t) :
    Clean xml src false (plainTree name kids) := by
  refine .elem ?_ ?_ ?_
  · intro n h; simp at h; subst h; exact safeName_of_check hn
  · intro s hs; cases hs; simp [attributesOf]
  · simp only [Option.bind_some, hr, Bool.or_false]; exact hk

theorem completePage_clean {xml : Bool} {src : Str} (doc : Document) (h : ∀ t ∈ forestOf src doc.nodes, Clean xml src false t) :
    ∀ t ∈ forestOf src (completePage src doc).nodes, Clean xml src false t := by
  rcases completePage_cases src doc with ⟨_, e⟩ | ⟨_, _, hd, hh, e⟩ | ⟨_, _, hd, hh, e⟩
  · rw [e]; exact h
  · rw [e, forestOf_eq]
    simp only [List.map_cons, List.map_nil, List.mem_singleton, forall_eq]
    rw [treeOf_page src "html" (by decide) hd hh]
    exact plainTree_clean "html" (by decide) (by cases xml <;> rfl) h
  · rw [e, forestOf_eq]
    simp only [List.map_cons, List.map_nil, List.mem_singleton, forall_eq]
    rw [treeOf_page src "html" (by decide) hd hh]
    refine plainTree_clean "html" (by decide) (by cases xml <;> rfl) ?_
    rw [forest_clean_iff]
    rw [forest_clean_iff] at h
    simp only [List.mem_cons, List.not_mem_nil, or_false, forall_eq_or_imp, forall_eq]
    refine ⟨?_, ?_, ?_⟩
    · rw [treeOf_page src "head" (by decide) _ rfl]
      refine plainTree_clean "head" (by decide) (by cases xml <;> rfl) ?_
      rw [forest_clean_iff]
      intro n hn
      obtain ⟨m, hm, hn⟩ := List.mem_flatMap.1 hn
      split at hn
      · exact childrenOf_clean (h m hm) n hn
      · split at hn
        · rw [List.mem_singleton.1 hn]; exact h m hm
        · simp at hn
    · exact .space (by simp)
    · rw [treeOf_page src "body" (by decide) _ rfl]
      refine plainTree_clean "body" (by decide) (by cases xml <;> rfl) ?_
      rw [forest_clean_iff]
      intro n hn
      exact h n (List.mem_filter.1 hn).1

theorem toInfer_clean {src : Str} {doc : Document} {cfg : OutputConfig} (hf : ∀ n ∈ doc.nodes, Fresh n)
    (hc : SafeTags cfg.isXml cfg.specialTags) (h : ∀ t ∈ forestOf src doc.nodes, Clean cfg.isXml src false t) :
    ∀ t ∈ forestOf src (toInfer cfg src doc), Clean cfg.isXml src false t := by
  have h1 : ∀ t ∈ forestOf src (applySpecialTags cfg doc).nodes, Clean cfg.isXml src false t := by
    rw [forest_clean_iff] at h ⊢
    intro n hn
    rw [applySpecialTags, specialNodes_eq] at hn
    obtain ⟨m, hm, rfl⟩ := List.mem_map.1 hn
    exact specialNode_clean hc (hf m hm) _ (h m hm)
  unfold toInfer
  split
  · exact completePage_clean _ h1
  · exact h1

/-! ## Metadata and language -/

theorem unescapes_plain {s u : Str} (h : Unescapes Accepted s u) (hs : '\\' ∉ s) : u = s := by
  induction h with
  | nil => rfl
  | plain h _ ih => rw [ih (fun h => hs (List.mem_cons_of_mem _ h))]
  | esc => simp at hs

/-- Attribute names that are added to documents. -/
def addedNames : List String :=
  ["lang", "xmlns:mty", "mty:raw", "mty:start", "mty:end", "mty:content-start", "mty:content-end", "mty:verbatim", "mty:multiline"]

theorem addedNames_safe {src : Str} {a : Attribute} (h : ∃ n ∈ addedNames, a.name = .provided n.toList) :
    ∀ x, Unescapes Accepted (a.name.asStr src) x → SafeAttrName x := by
  obtain ⟨n, hn, e⟩ := h
  intro x hx
  rw [e, TextSlice.asStr] at hx
  have all : ∀ m ∈ addedNames, '\\' ∉ m.toList ∧ m.toList ≠ [] ∧ m.toList.all attrChar = true := by decide +kernel
  obtain ⟨g1, g2, g3⟩ := all n hn
  rw [unescapes_plain hx g1]
  exact ⟨g2, fun c hc => List.all_eq_true.1 g3 c hc⟩

theorem metaFinish_mem {loc : Nat} {as : List Attribute} {s : Selector} (ha : ∀ a ∈ as, ∃ n ∈ addedNames, a.name = .provided n.toList) :
    (metaFinish loc as s).tag = s.tag ∧ ∀ a ∈ attributesOf (metaFinish loc as s).items, a ∈ attributesOf s.items ∨
      ∃ n ∈ addedNames, a.name = .provided n.toList := by
  unfold metaFinish
  split
  · exact ⟨rfl, fun a h => .inl h⟩
  · refine ⟨rfl, fun a h => ?_⟩
    simp only [attributesOf, List.flatMap_append, List.flatMap_cons, List.flatMap_nil, List.append_nil, List.mem_append] at h
    rcases h with h | h
    · exact .inl h
    · exact .inr (ha a h)

theorem metaRange_mem {loc : Nat} {x y : String} {r : Range} (hx : x ∈ addedNames) (hy : y ∈ addedNames) :
    ∀ a ∈ metaRange loc x y r, ∃ n ∈ addedNames, a.name = .provided n.toList := by
  unfold metaRange
  intro a ha
  split at ha
  · simp only [List.mem_cons, List.not_mem_nil, or_false] at ha
    rcases ha with rfl | rfl
    · exact ⟨x, hx, rfl⟩
    · exact ⟨y, hy, rfl⟩
  · simp at ha

theorem metaBool_mem {loc : Nat} {x : String} {v d : Bool} (hx : x ∈ addedNames) :
    ∀ a ∈ metaBoolExcept loc x v d, ∃ n ∈ addedNames, a.name = .provided n.toList := by
  unfold metaBoolExcept
  intro a ha
  split at ha
  · rw [List.mem_singleton.1 ha]; exact ⟨x, hx, rfl⟩
  · simp at ha

theorem metaSelectors_mem (cx : MetaCx) (ss : List Selector) : ∀ i, ∀ s' ∈ (metaSelectors cx i ss).1, ∃ s ∈ ss,
    (s'.tag = s.tag ∨ s'.tag = .explicit (.provided "mty:element".toList)) ∧
    ∀ a ∈ attributesOf s'.items, a ∈ attributesOf s.items ∨ ∃ n ∈ addedNames, a.name = .provided n.toList := by
  induction ss with
  | nil => intro i s' hs'; simp [metaSelectors] at hs'
  | cons s rest ih =>
    intro i s' hs'
    have ih := ih (i + 1)
    rw [metaSelectors] at hs'
    generalize metaSelectors cx (i + 1) rest = p at *
    obtain ⟨rest', cr⟩ := p
    dsimp only at hs' ih
    have tail : s' ∈ rest' → ∃ s1 ∈ s :: rest, (s'.tag = s1.tag ∨ s'.tag = .explicit (.provided "mty:element".toList)) ∧
        ∀ a ∈ attributesOf s'.items, a ∈ attributesOf s1.items ∨ ∃ n ∈ addedNames, a.name = .provided n.toList := by
      intro h
      obtain ⟨s0, h0, h1⟩ := ih s' h
      exact ⟨s0, List.mem_cons_of_mem _ h0, h1⟩
    split at hs'
    · rcases List.mem_cons.1 hs' with rfl | hs'
      · exact ⟨s', List.mem_cons_self, .inl rfl, fun a h => .inl h⟩
      · exact tail hs'
    · rcases List.mem_cons.1 hs' with rfl | hs'
      · refine ⟨s, List.mem_cons_self, ?_⟩
        generalize hs0 : (if s.uninferred = true then
          { s with tag := Tag.explicit (.provided "mty:element".toList) } else s) = s0
        have e : (s0.tag = s.tag ∨ s0.tag = .explicit (.provided "mty:element".toList)) ∧ s0.items = s.items := by
          subst hs0; split <;> simp
        rw [← e.2]
        suffices h : ∀ as : List Attribute, (∀ a ∈ as, ∃ n ∈ addedNames, a.name = .provided n.toList) →
            (((metaFinish s0.range.stop as s0).tag = s.tag ∨ (metaFinish s0.range.stop as s0).tag =
              .explicit (.provided "mty:element".toList)) ∧
            ∀ a ∈ attributesOf (metaFinish s0.range.stop as s0).items, a ∈ attributesOf s0.items ∨
              ∃ n ∈ addedNames, a.name = .provided n.toList) by
          apply h
          intro a ha
          simp only [List.mem_append] at ha
          rcases ha with (ha | ha) | ha
          · split at ha
            · rcases List.mem_append.1 ha with ha | ha
              · split at ha
                · rw [List.mem_singleton.1 ha]; exact ⟨"xmlns:mty", by decide, rfl⟩
                · simp at ha
              · exact metaBool_mem (by decide) a ha
            · simp at ha
          · exact metaRange_mem (by decide) (by decide) a ha
          · exact metaRange_mem (by decide) (by decide) a ha
        intro as has
        have := metaFinish_mem (loc := s0.range.stop) (s := s0) has
        refine ⟨?_, this.2⟩
        rw [this.1]
        exact e.1
      · exact tail hs'

theorem metaElement_mem (opts : MetadataConfig) (r : Range) (h : EHead) (root : Bool) :
    (metaElement opts r h root).isRaw = h.isRaw ∧
    ∀ s' ∈ (metaElement opts r h root).selectors,
      ((∃ s ∈ h.selectors, s'.tag = s.tag) ∨ s'.tag = .explicit (.provided "mty:element".toList) ∨ s'.tag = .implicit) ∧
      ∀ a ∈ attributesOf s'.items, (∃ s ∈ h.selectors, a ∈ attributesOf s.items) ∨
        ∃ n ∈ addedNames, a.name = .provided n.toList := by
  unfold metaElement
  dsimp only
  split
  · exact ⟨rfl, fun s' hs' => ⟨.inl ⟨s', hs', rfl⟩, fun a ha => .inl ⟨s', hs', ha⟩⟩⟩
  · refine ⟨by split <;> rfl, ?_⟩
    intro s' hs'
    obtain ⟨s, hs, ht, ha⟩ := metaSelectors_mem _ _ _ s' hs'
    split at hs
    · simp only [List.mem_singleton] at hs
      subst hs
      refine ⟨?_, fun a h => ?_⟩
      · rcases ht with ht | ht
        · exact .inr (.inr ht)
        · exact .inr (.inl ht)
      · rcases ha a h with h | h
        · simp [attributesOf, Selector.empty] at h
        · exact .inr h
    · refine ⟨?_, fun a h => ?_⟩
      · rcases ht with ht | ht
        · exact .inl ⟨s, hs, ht⟩
        · exact .inr (.inl ht)
      · rcases ha a h with h | h
        · exact .inl ⟨s, hs, h⟩
        · exact .inr h

theorem metaElement_readable {xml : Bool} {src : Str} {raw : Bool} {opts : MetadataConfig} {r r' : Range} {h : EHead} {root : Bool} {ch : List Node}
    (h1 : h.selectors.length ≤ 1) (h2 : ∀ s ∈ h.selectors, ∀ n, s.tag.name = some n → SafeName (n.asStr src))
    (h3 : ∀ s ∈ h.selectors, ∀ a ∈ attributesOf s.items, ∀ x, Unescapes Accepted (a.name.asStr src) x → SafeAttrName x)
    (h4 : ∀ c ∈ ch, Readable xml src (raw || h.isRaw) c) :
    Readable xml src raw (.elem r' (metaElement opts r h root) ch) := by
  obtain ⟨m1, m2⟩ := metaElement_mem opts r h root
  refine .elem (metaElement_single _ _ _ _ h1) ?_ ?_ (by rw [m1]; exact h4)
  · intro s' hs' n hn
    rcases (m2 s' hs').1 with ⟨s, hs, e⟩ | e | e
    · rw [e] at hn; exact h2 s hs n hn
    · rw [e] at hn; cases hn; rw [TextSlice.asStr]; exact safeName_of_check (by decide +kernel)
    · rw [e] at hn; cases hn
  · intro s' hs' a ha
    rcases (m2 s' hs').2 a ha with ⟨s, hs, h⟩ | h
    · exact h3 s hs a h
    · exact addedNames_safe h

mutual
  theorem metaNode_readable {xml : Bool} {src : Str} {opts : MetadataConfig} (ho : opts.elements = true → xml = true) :
      ∀ (n : Node) (raw root : Bool), Readable xml src raw n → Readable xml src raw (metaNode opts n root)
    | .elem r h ch, raw, root, hr => by
      rw [metaNode]
      cases hr with
      | elem h1 h2 h3 h4 => exact metaElement_readable h1 h2 h3 (metaNodes_readable ho ch _ false h4)
    | .text r (.text t), raw, root, hr => by
      rw [metaNode]
      split
      · rename_i he
        simp only [Bool.and_eq_true, Bool.not_eq_true'] at he
        have hx := ho he.1
        have hf := metaFinish_mem (loc := r.start) (s := (Selector.empty r.start).withTag (.provided "mty:text".toList))
          (as := metaBoolExcept r.start "mty:verbatim" (!t.unescapeIn) false ++
            metaBoolExcept r.start "mty:multiline" t.multiline false) (by
            intro a ha
            rcases List.mem_append.1 ha with ha | ha
            · exact metaBool_mem (by decide) a ha
            · exact metaBool_mem (by decide) a ha)
        refine metaElement_readable (by simp) ?_ ?_ ?_
        · intro s hs n hn
          simp only [List.mem_singleton] at hs
          subst hs
          rw [hf.1] at hn
          cases hn
          rw [TextSlice.asStr]
          exact safeName_of_check (by decide +kernel)
        · intro s hs a ha
          simp only [List.mem_singleton] at hs
          subst hs
          rcases hf.2 a ha with h | h
          · simp [attributesOf, Selector.withTag, Selector.empty] at h
          · exact addedNames_safe h
        · intro c hc
          rw [List.mem_singleton.1 hc]
          exact .text he.2 (fun h => by rw [hx] at h; cases h)
      · exact hr
    | .text r (.comment s), raw, root, hr => by
      rw [metaNode]
      split
      · rename_i he
        have hx := ho he
        refine metaElement_readable ?_ ?_ ?_ ?_
        · simp [EHead.applyTags, EHead.new, TextSlice.isEmpty]
        · intro s hs n hn
          simp only [EHead.applyTags, EHead.new, TextSlice.isEmpty] at hs
          simp at hs
          subst hs
          cases hn
          rw [TextSlice.asStr]
          exact safeName_of_check (by decide +kernel)
        · intro s hs
          simp only [EHead.applyTags, EHead.new, TextSlice.isEmpty] at hs
          simp at hs
          subst hs
          simp [attributesOf, Selector.withTag, Selector.empty]
        · intro c hc
          rw [List.mem_singleton.1 hc]
          exact .text rfl (fun h => by rw [hx] at h; cases h)
      · exact hr
    | .text r (.space s), raw, root, hr => by rw [metaNode]; exact hr
  theorem metaNodes_readable {xml : Bool} {src : Str} {opts : MetadataConfig} (ho : opts.elements = true → xml = true) :
      ∀ (ns : List Node) (raw root : Bool), (∀ n ∈ ns, Readable xml src raw n) → ∀ n ∈ metaNodes opts ns root, Readable xml src raw n
    | [], _, _, _ => by simp [metaNodes]
    | n :: ns, raw, root, h => by
      rw [metaNodes]
      intro x hx
      rcases List.mem_cons.1 hx with rfl | hx
      · exact metaNode_readable ho n raw root (h n List.mem_cons_self)
      · exact metaNodes_readable ho ns raw root (fun y hy => h y (List.mem_cons_of_mem _ hy)) x hx
end

theorem langSelectors_mem (l : Str) (ss : List Selector) : ∀ s' ∈ langSelectors l ss, ∃ s ∈ ss, s'.tag = s.tag ∧
    ∀ a ∈ attributesOf s'.items, a ∈ attributesOf s.items ∨ ∃ n ∈ addedNames, a.name = .provided n.toList := by
  induction ss with
  | nil => simp [langSelectors]
  | cons s ss ih =>
    intro s' hs'
    rw [langSelectors] at hs'
    split at hs'
    · rcases List.mem_cons.1 hs' with rfl | hs'
      · refine ⟨s, List.mem_cons_self, rfl, fun a ha => ?_⟩
        simp only [attributesOf, List.flatMap_append, List.flatMap_cons, List.flatMap_nil, List.append_nil, List.mem_append,
          List.mem_singleton] at ha
        rcases ha with ha | rfl
        · exact .inl ha
        · exact .inr ⟨"lang", by decide, rfl⟩
      · exact ⟨s', List.mem_cons_of_mem _ hs', rfl, fun a h => .inl h⟩
    · rcases List.mem_cons.1 hs' with rfl | hs'
      · exact ⟨s', List.mem_cons_self, rfl, fun a h => .inl h⟩
      · obtain ⟨s0, h0, h1⟩ := ih s' hs'
        exact ⟨s0, List.mem_cons_of_mem _ h0, h1⟩

theorem langNode_readable {xml : Bool} {src : Str} {raw : Bool} (l : Str) {n : Node} (h : Readable xml src raw n) :
    Readable xml src raw (langNode l n) := by
  cases h with
  | space h => exact .space h
  | text h1 h2 => exact .text h1 h2
  | comment => exact .comment
  | elem h1 h2 h3 h4 =>
    rw [langNode]
    refine .elem (by simpa [langSelectors_length] using h1) ?_ ?_ h4
    · intro s' hs' n hn
      obtain ⟨s, hs, e, _⟩ := langSelectors_mem l _ s' hs'
      rw [e] at hn
      exact h2 s hs n hn
    · intro s' hs' a ha
      obtain ⟨s, hs, _, e⟩ := langSelectors_mem l _ s' hs'
      rcases e a ha with h | h
      · exact h3 s hs a h
      · exact addedNames_safe h

/-! ## All together -/

theorem transform_readable {src : Str} {ast : Ast.Document} {e e' : Errors} {doc : Document} {cfg : OutputConfig}
    (h : Build.fromAst src ast e = (some doc, e')) (hc : SafeTags cfg.isXml cfg.specialTags)
    (hm : ∀ m, cfg.metadata = some m → m.elements = true → cfg.isXml = true)
    (hcl : ∀ t ∈ forestOf src doc.nodes, Clean cfg.isXml src false t) :
    ∀ n ∈ (transformDocument doc src cfg).nodes, Readable cfg.isXml src false n := by
  rw [transformDocument_eq]
  have hp := toInfer_plain cfg h
  obtain ⟨i1, i2⟩ := infer_tree src _ hp
  have h1 : ∀ n ∈ Infer.infer src (toInfer cfg src doc), Readable cfg.isXml src false n := by
    intro n hn
    refine clean_readable (i2 n hn) _ ?_
    have : ∀ t ∈ forestOf src (Infer.infer src (toInfer cfg src doc)), Clean cfg.isXml src false t := by
      rw [i1]
      exact inferForest_forall _ _ _ _ _ fun t ht fi la =>
        inferTree_clean t _ (toInfer_clean (fromAst_fresh h) hc hcl t ht) _ _ _ fi la
    exact forest_clean_iff.1 this n hn
  generalize Infer.infer src (toInfer cfg src doc) = ns at *
  have h2 : ∀ n ∈ (match cfg.metadata with | some m => (metaNodes m · true) | none => id) ns, Readable cfg.isXml src false n := by
    cases hmd : cfg.metadata with
    | none => exact h1
    | some m => exact metaNodes_readable (hm m hmd) ns _ true h1
  cases cfg.lang with
  | none => exact h2
  | some l =>
    intro n hn
    obtain ⟨n', hn', rfl⟩ := List.mem_map.1 hn
    exact langNode_readable l (h2 n' hn')

end Mty

namespace Mty
open Spec

/-! ## Start tags and comments -/

theorem nodesSelectors_inner (ns : List Node) : nodesSelectors (inner ns) = nodesSelectors ns := by
  have sp : ∀ n, inner.isSpaceNode n = true → nodeSelectors n = [] := by
    intro n h
    cases n with
    | text => rfl
    | elem => simp [inner.isSpaceNode] at h
  have dw : ∀ l : List Node, nodesSelectors (l.dropWhile inner.isSpaceNode) = nodesSelectors l := by
    intro l
    induction l with
    | nil => rfl
    | cons n l ih =>
      rw [List.dropWhile_cons]
      split
      · rename_i h; rw [ih, nodesSelectors, sp n h, List.nil_append]
      · rfl
  have rev : ∀ l : List Node, nodesSelectors ((l.reverse.dropWhile inner.isSpaceNode).reverse) = nodesSelectors l := by
    intro l
    suffices hh : ∀ m : List Node, nodesSelectors ((m.dropWhile inner.isSpaceNode).reverse) = nodesSelectors m.reverse by
      have := hh l.reverse; rwa [List.reverse_reverse] at this
    intro m
    induction m with
    | nil => rfl
    | cons n l ih =>
      rw [List.dropWhile_cons]
      split
      · rename_i h; rw [ih, List.reverse_cons, nodesSelectors_append]; simp [nodesSelectors, sp n h]
      · rfl
  rw [inner, rev, dw]

theorem namedSelectors_cons (n : Node) (ns : List Node) :
    namedSelectors (n :: ns) = namedSelectors [n] ++ namedSelectors ns := by
  simp [namedSelectors, nodesSelectors]

theorem namedSelectors_inner (ns : List Node) : namedSelectors (inner ns) = namedSelectors ns := by
  unfold namedSelectors; rw [nodesSelectors_inner]

theorem startTags_append (a b : List Token) : startTags (a ++ b) = startTags a ++ startTags b := List.filterMap_append

theorem startTags_chars (s : Str) : startTags (s.map .char) = [] := by
  induction s with
  | nil => rfl
  | cons c s ih => exact ih

theorem gap_startTags {indent : Option Str} {inl a b : Bool} {toks : List Token} (h : Gap indent inl a b toks) :
    startTags toks = [] := by
  cases h with
  | none => rfl
  | line h => cases h with
    | none => rfl
    | line => exact startTags_chars _

theorem separator_startTags {indent : Option Str} {src : Str} {inl : Bool} {s : Space} {toks : List Token}
    (h : Separator indent src inl s toks) : startTags toks = [] := by
  cases h with
  | written => exact startTags_chars _
  | blank => rfl
  | lineEnd => rfl
  | paragraphEnd => rfl
  | brokenLine h => cases h with
    | none => rfl
    | line => exact startTags_chars _
  | brokenParagraph h => cases h with
    | none => rfl
    | line => exact startTags_chars _

/-- The tags of the elements, in order. -/
theorem readsAs_tags {xml : Bool} {src : Str} {indent : Option Str} {inl ws ws' : Bool} {ns : List Node}
    {toks : List Token} (h : ReadsAs xml src indent inl ws ns toks ws') :
    List.Forall₂ (fun (s : TextSlice × List SelectorItem) (t : Str × List (Str × Option Str)) =>
      t.1 = s.1.asStr src ∧ AttrsRead xml src s.2 t.2) (namedSelectors ns) (startTags toks) := by
  induction h with
  | nil => exact .nil
  | dropped _ ih => exact ih
  | space h _ ih => rw [startTags_append, separator_startTags h]; exact ih
  | text _ _ _ ih => rw [startTags_append, startTags_chars]; exact ih
  | comment _ _ ih => exact ih
  | @unnamed inl ws ws1 ws' r h ch body ns rest hn _ _ ih1 ih2 =>
    rw [namedSelectors_cons, startTags_append]
    refine List.rel_append ?_ ih2
    rw [namedSelectors_inner] at ih1
    have : namedSelectors [Node.elem r h ch] = namedSelectors ch := by
      simp only [namedSelectors, nodesSelectors, nodeSelectors, List.append_nil, List.filterMap_append]
      rw [List.filterMap_eq_nil_iff.2, List.nil_append]
      intro s hs; simp [hn s hs]
    rw [this]; exact ih1
  | @empty inl ws ws' r h s n attrs ns rest _ hs hn ha _ ih =>
    rw [namedSelectors_cons]
    have : namedSelectors [Node.elem r h []] = [(n, s.items)] := by
      simp [namedSelectors, nodesSelectors, nodeSelectors, hs, hn]
    rw [this]
    exact .cons ⟨rfl, ha⟩ ih
  | @void inl ws ws1 ws2 ws3 ws' r h s n attrs ch body a b ns rest hs hn _ ha ga _ gb _ ih1 ih2 =>
    rw [namedSelectors_cons]
    have : namedSelectors [Node.elem r h ch] = (n, s.items) :: namedSelectors ch := by
      simp [namedSelectors, nodesSelectors, nodeSelectors, hs, hn]
    rw [this]
    rw [namedSelectors_inner] at ih1
    refine .cons ⟨rfl, ha⟩ ?_
    change List.Forall₂ _ (namedSelectors ch ++ namedSelectors ns) (startTags ((a ++ body ++ b) ++ rest))
    rw [startTags_append, startTags_append, startTags_append, gap_startTags ga, gap_startTags gb,
      List.nil_append, List.append_nil]
    exact List.rel_append ih1 ih2
  | @named inl ws ws1 ws2 ws3 ws' r h s n attrs ch body a b ns rest hs hn _ _ ha ga _ gb _ ih1 ih2 =>
    rw [namedSelectors_cons]
    have : namedSelectors [Node.elem r h ch] = (n, s.items) :: namedSelectors ch := by
      simp [namedSelectors, nodesSelectors, nodeSelectors, hs, hn]
    rw [this]
    rw [namedSelectors_inner] at ih1
    refine .cons ⟨rfl, ha⟩ ?_
    change List.Forall₂ _ (namedSelectors ch ++ namedSelectors ns) (startTags ((a ++ body ++ b) ++ (Token.stop _ :: rest)))
    rw [startTags_append, startTags_append, startTags_append, gap_startTags ga, gap_startTags gb,
      List.nil_append, List.append_nil]
    exact List.rel_append ih1 ih2

/-! ## A check for concrete documents -/

mutual
  /-- A check for `Clean` on trees whose names of attributes have no escapes. -/
  def cleanB (xml : Bool) (src : Str) : Bool → Tree → Bool
    | _, .leaf (.space (.inline (some t))) =>
      (t.asStr src).all (fun c => decide (c.toNat ∈ whiteSpace ∧ c ≠ '\r')) && !(t.asStr src).isEmpty
    | _, .leaf (.space _) => true
    | raw, .leaf (.text t) => !t.raw && (xml || (t.escapeOut && !raw))
    | _, .leaf (.comment _) => true
    | raw, .elem _ raw' _ sel ch =>
      (match sel.bind (·.1) with | some n => n.head?.any nameStart && n.all nameChar | none => true) &&
      (match sel with
        | some s => (attributesOf s.2).all fun a =>
            !(a.name.asStr src).isEmpty && (a.name.asStr src).all fun c => attrChar c && c ≠ '\\'
        | none => true) &&
      cleansB xml src (raw || raw' || rawName xml (sel.bind (·.1))) ch
  def cleansB (xml : Bool) (src : Str) : Bool → List Tree → Bool
    | _, [] => true
    | raw, t :: ts => cleanB xml src raw t && cleansB xml src raw ts
end

mutual
  theorem cleanB_sound {xml : Bool} {src : Str} : ∀ {raw : Bool} {t : Tree}, cleanB xml src raw t = true → Clean xml src raw t
    | _, .leaf (.space .lineEnd), _ => .space (by simp)
    | _, .leaf (.space .paragraphEnd), _ => .space (by simp)
    | _, .leaf (.space (.inline none)), _ => .space (by simp)
    | _, .leaf (.space (.inline (some t))), h => by
      rw [cleanB, Bool.and_eq_true, List.all_eq_true] at h
      refine .space ?_
      intro t' ht
      cases ht
      exact ⟨fun c hc => by simpa using h.1 c hc, by simpa using h.2⟩
    | raw, .leaf (.text t), h => by
      simp only [cleanB, Bool.and_eq_true, Bool.or_eq_true, Bool.not_eq_true'] at h
      refine .text h.1 fun hx => ?_
      rcases h.2 with h | h
      · rw [hx] at h; cases h
      · exact h
    | _, .leaf (.comment _), _ => .comment
    | raw, .elem f raw' fmt sel ch, h => by
      simp only [cleanB, Bool.and_eq_true] at h
      obtain ⟨⟨h1, h2⟩, h3⟩ := h
      refine .elem ?_ ?_ (cleansB_sound h3)
      · intro n hn
        rw [hn] at h1
        exact safeName_of_check (by simpa using h1)
      · intro s hs a ha x hx
        rw [hs] at h2
        simp only [List.all_eq_true] at h2
        have := h2 a ha
        simp only [Bool.and_eq_true, List.all_eq_true, Bool.not_eq_true'] at this
        have hb : '\\' ∉ a.name.asStr src := by
          intro hc
          have := this.2 _ hc
          simp at this
        rw [unescapes_plain hx hb]
        exact ⟨by simpa using this.1, fun c hc => (this.2 c hc).1⟩
  theorem cleansB_sound {xml : Bool} {src : Str} : ∀ {raw : Bool} {ts : List Tree}, cleansB xml src raw ts = true →
      ∀ t ∈ ts, Clean xml src raw t
    | _, [], _ => by simp
    | raw, t :: ts, h => by
      rw [cleansB, Bool.and_eq_true] at h
      have h1 := cleanB_sound h.1
      have h2 := cleansB_sound h.2
      intro x hx
      rcases List.mem_cons.1 hx with e | hx
      · rw [e]; exact h1
      · exact h2 x hx
end

end Mty
