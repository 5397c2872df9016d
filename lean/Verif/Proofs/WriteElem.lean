import Verif.Proofs.WriteSem

/-!
# Reading what is written: elements and blocks
-/

set_option autoImplicit false

namespace Mty.Write
open Spec Grammar

variable {xml : Bool} {src : Str} {c : SpecialTagConfig}

/-! ## Elements -/

/-- The delimiter of the form. -/
def OfForm : ElementForm → Mty.Delim → Prop
  | .line, .line _ => True
  | .block, .block _ => True
  | .lineBlock, .lineBlock _ _ => True
  | _, _ => False

theorem OfForm.form {f : ElementForm} {d : Mty.Delim} (h : OfForm f d) : formOf (.standard d) = some f.form := by
  cases f <;> cases d <;> first | rfl | exact absurd h id

theorem OfForm.inline {f : ElementForm} {d : Mty.Delim} (h : OfForm f d) (hf : f ≠ .block) : formOf (.inline (some d)) = some f.form := by
  cases f <;> cases d <;> first | rfl | exact absurd h id | exact absurd rfl hf

/-- What an element stands for, after the selectors `chain`. -/
def ElemOut (xml : Bool) (src : Str) (c : SpecialTagConfig) (p : Spot) (f : ElementForm) (m : List Piece) (chain : List Selector) (out : List Node) : Prop :=
  ∃ s ss d r r2 kids, out = [element (chain ++ s :: ss) (.standard d) r r2 kids] ∧ OfForm f d ∧
    ∀ h : EHead, h.isRaw = false → formOf h.ty = some f.form → ∀ ts,
      Inferred p [chainTree src h (s :: ss) (forestOf src (specialNodes c kids))] ts → Core xml src ts m

/-- Selectors and `>` or `{ .. }` stand for the pieces. -/
structure ElemSem (xml : Bool) (src : Str) (c : SpecialTagConfig) (p : Spot) (f : ElementForm) (nodes : List Ast.Node) (m : List Piece) : Prop where
  ne : nodes ≠ []
  okChain : Chain .arrow (itemsOf src nodes) (.element [])
  okLine : Items (itemsOf src nodes) [true] []
  after : ∀ chain pr gt out rest, AfterArrow src chain pr gt nodes out rest → rest = [] ∧ ElemOut xml src c p f m chain out
  line : ∀ out rest, LineIs src nodes out rest → rest = [] ∧ ∃ el, out = spaceBefore (headSpace nodes) ++ el ∧ ElemOut xml src c p f m [] el
  first : ∀ out rest, LineIs src nodes out rest → ∃ s ss d r r2 kids name ps m', out = spaceBefore (headSpace nodes) ++ [element (s :: ss) (.standard d) r r2 kids] ∧
    m = [.elem name ps m'] ∧ HasName p (some f.form) (selOf src s).1 name

/-- The rest after the first selector. -/
structure TailSem (xml : Bool) (src : Str) (c : SpecialTagConfig) (p : Spot) (f : ElementForm) (n : Option Str) (ps : List Spec.Part)
    (nodes : List Ast.Node) (m : List Piece) : Prop where
  top : ∃ name m', m = [.elem name ps m'] ∧ HasName p (some f.form) n name
  ok : Chain .selector (itemsOf src nodes) (.element [])
  after : ∀ chain pr out rest, AfterSelector src chain pr nodes out rest → rest = [] ∧
    ∃ ss d r r2 kids, out = [element (chain ++ ss) (.standard d) r r2 kids] ∧ OfForm f d ∧
      ∀ (t : Selector) (h : EHead), h.isRaw = false → formOf h.ty = some f.form → selOf src t = (n, t.items) → Attrs xml src t.items ps →
        ∀ ts, Inferred p [chainTree src h (t :: ss) (forestOf src (specialNodes c kids))] ts → Core xml src ts m

theorem ElemSem.ofTail {p : Spot} {f : ElementForm} {n : Option Str} {ps : List Spec.Part} {nodes : List Ast.Node} {m : List Piece}
    {sp : Option Range} {a b : Nat} {s : Ast.Selector} (hs : SelSem xml src s n ps) (ht : TailSem xml src c p f n ps nodes m) :
    ElemSem xml src c p f (.mk sp a b (.selector s) :: nodes) m := by
  refine ⟨by simp, ?_, ?_, fun chain pr gt out rest h => ?_, fun out rest h => ?_, fun out rest h => ?_⟩
  · rw [itemsOf]
    exact .arrowSelector rfl hs.ok ht.ok
  · rw [itemsOf]
    exact .selector rfl hs.ok ht.ok .nil
  · cases h with
    | selector h1 h2 =>
      obtain ⟨rfl, ss, d, r, r2, kids, rfl, h3, h4⟩ := ht.after _ _ _ _ h2
      obtain ⟨h5, h6⟩ := hs.means _ h1
      exact ⟨rfl, _, ss, d, r, r2, kids, by simp, h3, fun h hr hf => h4 _ h hr hf h5 h6⟩
    | line h1 => exact absurd h1 id
  · cases h with
    | item h1 => exact absurd h1 id
    | selector h1 h2 h3 =>
      obtain ⟨rfl, ss, d, r, r2, kids, rfl, h4, h7⟩ := ht.after _ _ _ _ h2
      obtain ⟨h5, h6⟩ := hs.means _ h1
      cases h3
      exact ⟨rfl, _, by simp only [headSpace, List.append_nil]; rfl, _, ss, d, r, r2, kids, by simp, h4, fun h hr hf => h7 _ h hr hf h5 h6⟩
  · cases h with
    | item h1 => exact absurd h1 id
    | selector h1 h2 h3 =>
      obtain ⟨rfl, ss, d, r, r2, kids, rfl, h4, h7⟩ := ht.after _ _ _ _ h2
      obtain ⟨h5, h6⟩ := hs.means _ h1
      cases h3
      obtain ⟨name, m', h8, h9⟩ := ht.top
      exact ⟨_, ss, d, r, r2, kids, name, ps, m', by simp only [headSpace, List.append_nil]; rfl, h8, by rw [h5]; exact h9⟩

/-- An element with one selector. -/
theorem core_one {p : Spot} {f : Form} {n : Option Str} {name : Str} {ps : List Spec.Part} {m : List Piece} {t : Selector} {h : EHead} {kids : List Tree}
    (hn : HasName p (some f) n name) (hw : ∀ w, n = some w → SafeName w) (hh : Holds name m)
    (hk : ∀ ts, Inferred (p.inside (some name) (some f)) kids ts → Body xml src ts m)
    (hr : h.isRaw = false) (hf : formOf h.ty = some f) (hs : selOf src t = (n, t.items)) (ha : Attrs xml src t.items ps) {ts : List Tree}
    (ht : Inferred p [chainTree src h [t] kids] ts) : Core xml src ts [.elem name ps m] := by
  rw [chainTree, hr, hf, hs] at ht
  exact core_named (named_safe hn hw) ha (fun fi la => named_sel hn (.inl rfl) fi la) hh hk ht

/-- An element around another one. -/
theorem core_more {p : Spot} {f : Form} {n : Option Str} {name : Str} {ps : List Spec.Part} {m : List Piece} {t s : Selector} {ss : List Selector}
    {h : EHead} {kids : List Tree}
    (hn : HasName p (some f) n name) (hw : ∀ w, n = some w → SafeName w) (hh : Holds name m)
    (hk : ∀ ts, Inferred (p.inside (some name) (some f)) [chainTree src h (s :: ss) kids] ts → Core xml src ts m)
    (hr : h.isRaw = false) (hf : formOf h.ty = some f) (hs : selOf src t = (n, t.items)) (ha : Attrs xml src t.items ps) {ts : List Tree}
    (ht : Inferred p [chainTree src h (t :: s :: ss) kids] ts) : Core xml src ts [.elem name ps m] := by
  rw [chainTree, hr, hf, hs] at ht
  refine core_named (named_safe hn hw) ha (fun fi la => named_sel hn (.inl rfl) fi la) hh (fun ts h => ?_) ht
  have := (hk ts h).body (a := []) (b := []) (by simp [AllSpaces]) (by simp [AllSpaces])
  simpa using this

/-- A row after `>`. -/
theorem afterArrow_row {p : Spot} {f v : Bool} {nodes : List Ast.Node} {m : List Piece} (hr : RowSem xml src c p f v nodes m) {chain : List Selector} {pr gt : Range}
    {out : List Node} {rest : List Ast.Node} (h : AfterArrow src chain pr gt nodes out rest) :
    rest = [] ∧ ∃ r r2 sp k, out = [element chain (.standard (.line gt)) r r2 (sp ++ k)] ∧ NSpaces sp ∧ NSem xml src c p k m := by
  cases h with
  | selector => exact absurd hr.starts (by simp [StartsChildren, itemsOf, itemOf, shapeOf])
  | arrow => exact absurd hr.starts (by simp [StartsChildren, itemsOf, itemOf, shapeOf])
  | block => exact absurd hr.starts (by simp [StartsChildren, itemsOf, itemOf, shapeOf])
  | line h1 h2 =>
    obtain ⟨rfl, core, _, rfl, h7, h8, h9⟩ := hr.means _ _ h2
    exact ⟨rfl, _, _, _, _, rfl, .before _, h9⟩

theorem RowSem.chain {p : Spot} {f v : Bool} {nodes : List Ast.Node} {m : List Piece} (hr : RowSem xml src c p f v nodes m) :
    Chain .arrow (itemsOf src nodes) (.element []) := by
  obtain ⟨v, h1, h2⟩ := hr.items
  exact .arrowLine hr.starts h1 h2

theorem body_after {q : Spot} {sp k : List Node} {m : List Piece} (hsp : NSpaces sp) (hk : NSem xml src c q k m) :
    ∀ ts, Inferred q (forestOf src (specialNodes c (sp ++ k))) ts → Body xml src ts m := by
  intro ts ht
  obtain ⟨a', k', b', rfl, h1, h2, h3⟩ := hk.body (b := []) hsp (by simp [NSpaces]) (by simpa using ht)
  exact h3.body h1 h2

theorem body_around {q : Spot} {sp k b : List Node} {m : List Piece} (hsp : NSpaces sp) (hb : NSpaces b) (hk : NSem xml src c q k m) :
    ∀ ts, Inferred q (forestOf src (specialNodes c (sp ++ k ++ b))) ts → Body xml src ts m := by
  intro ts ht
  obtain ⟨a', k', b', rfl, h1, h2, h3⟩ := hk.body hsp hb ht
  exact h3.body h1 h2

/-- `selector> ..` -/
theorem TailSem.line {p : Spot} {f v : Bool} {n : Option Str} {name : Str} {ps : List Spec.Part} {nodes : List Ast.Node} {m : List Piece}
    {sp : Option Range} {a b : Nat} {cr : Range} (hn : HasName p (some .line) n name) (hw : ∀ w, n = some w → SafeName w) (hh : Holds name m)
    (hr : RowSem xml src c (p.inside (some name) (some .line)) f v nodes m) :
    TailSem xml src c p .line n ps (.mk sp a b (.line cr) :: nodes) [.elem name ps m] := by
  refine ⟨⟨name, _, rfl, hn⟩, ?_, fun chain pr out rest h => ?_⟩
  · rw [itemsOf]
    exact .selectorArrow rfl hr.chain
  · cases h with
    | arrow h =>
      obtain ⟨rfl, r, r2, sp, k, rfl, h1, h2⟩ := afterArrow_row hr h
      refine ⟨rfl, [], .line cr, r, r2, _, by rw [List.append_nil], trivial, fun t h hr hf hs ha ts ht => ?_⟩
      exact core_one hn hw hh (body_after h1 h2) hr hf hs ha ht

/-- `selector>` -/
theorem TailSem.empty {p : Spot} {n : Option Str} {name : Str} {ps : List Spec.Part}
    {sp : Option Range} {a b : Nat} {cr : Range} (hn : HasName p (some .line) n name) (hw : ∀ w, n = some w → SafeName w) (hh : Holds name []) :
    TailSem xml src c p .line n ps [.mk sp a b (.line cr)] [.elem name ps []] := by
  refine ⟨⟨name, _, rfl, hn⟩, ?_, fun chain pr out rest h => ?_⟩
  · rw [itemsOf]
    exact .selectorArrow rfl (.arrowLine trivial .nil (.inl (by simp)))
  · cases h with
    | arrow h =>
      cases h with
      | line _ h =>
        cases h
        refine ⟨rfl, [], .line cr, _, _, _, by rw [List.append_nil], trivial, fun t h hr hf hs ha ts ht => ?_⟩
        refine core_one hn hw hh (fun ts ht => ?_) hr hf hs ha ht
        cases ht
        exact .empty

/-- `> ..` -/
theorem ElemSem.bare {p : Spot} {f v : Bool} {name : Str} {nodes : List Ast.Node} {m : List Piece} {sp : Option Range} {a b : Nat} {cr : Range}
    (hn : HasName p (some .line) none name) (hh : Holds name m) (hr : RowSem xml src c (p.inside (some name) (some .line)) f v nodes m) :
    ElemSem xml src c p .line (.mk sp a b (.line cr) :: nodes) [.elem name [] m] := by
  have key : ∀ {t : Selector} {k sp : List Node}, NoSelector a t → NSpaces sp → NSem xml src c (p.inside (some name) (some .line)) k m →
      ∀ h : EHead, h.isRaw = false → formOf h.ty = some Form.line →
        ∀ ts, Inferred p [chainTree src h [t] (forestOf src (specialNodes c (sp ++ k)))] ts → Core xml src ts [.elem name [] m] := by
    intro t k sp hs h1 h2 h hr hf ts ht
    refine core_one hn (by simp) hh (body_after h1 h2) hr hf ?_ ?_ ht
    · simp [selOf, hs.1, Tag.name]
    · rw [hs.2.1]; exact attrs_nil
  refine ⟨by simp, ?_, ?_, fun chain pr gt out rest h => ?_, fun out rest h => ?_, fun out rest h => ?_⟩
  · rw [itemsOf]
    exact .arrowArrow rfl hr.chain
  · rw [itemsOf]
    exact .arrow rfl hr.chain
  · cases h with
    | arrow h1 h2 =>
      obtain ⟨rfl, r, r2, sp, k, rfl, h3, h4⟩ := afterArrow_row hr h2
      exact ⟨rfl, _, [], _, r, r2, _, rfl, trivial, key h1 h3 h4⟩
    | line h1 => exact absurd h1 id
  · cases h with
    | item h1 => exact absurd h1 id
    | arrow h1 h2 =>
      obtain ⟨rfl, r, r2, sp, k, rfl, h3, h4⟩ := afterArrow_row hr h2
      exact ⟨rfl, _, rfl, _, [], _, r, r2, _, rfl, trivial, key h1 h3 h4⟩
  · cases h with
    | item h1 => exact absurd h1 id
    | arrow h1 h2 =>
      obtain ⟨rfl, r, r2, sp, k, rfl, h3, h4⟩ := afterArrow_row hr h2
      exact ⟨_, [], _, r, r2, _, name, [], m, rfl, rfl, by simp only [selOf, h1.1, Tag.name]; exact hn⟩

/-- `selector> { .. }` -/
theorem TailSem.lineBlock {p : Spot} {f : Bool} {n : Option Str} {name : Str} {ps : List Spec.Part} {m : List Piece}
    {sp sp' : Option Range} {a b a' b' s e : Nat} {cr l cl : Range} {rows blanks : List Ast.Line}
    (hn : HasName p (some .line) n name) (hw : ∀ w, n = some w → SafeName w) (hh : Holds name m)
    (hr : Rows xml src c (p.inside (some name) (some .line)) f true rows m) (hb : Empty blanks) :
    TailSem xml src c p .lineBlock n ps [.mk sp a b (.line cr), .mk sp' a' b' (.block l (.mk s (rows ++ blanks) e) (some cl))] [.elem name ps m] := by
  refine ⟨⟨name, _, rfl, hn⟩, ?_, fun chain pr out rest h => ?_⟩
  · rw [itemsOf, itemsOf]
    exact .selectorArrow rfl (.arrowBlock rfl ⟨rfl, linesOk_append.2 ⟨hr.ok, linesOk_empty hb⟩⟩)
  · cases h with
    | arrow h =>
      cases h with
      | line h => exact absurd h id
      | block h =>
        obtain ⟨sp, k, bb, rfl, h2, h3, h4⟩ := content_rows hr hb h
        refine ⟨rfl, [], .lineBlock cr ⟨a', b'⟩, _, _, _, by rw [List.append_nil], trivial, fun t h hr hf hs ha ts ht => ?_⟩
        exact core_one hn hw hh (body_around h2 h3 h4) hr hf hs ha ht

/-- `selector> selector> ..` and so on. -/
theorem TailSem.chain {p : Spot} {f : ElementForm} {n : Option Str} {name : Str} {ps : List Spec.Part} {nodes : List Ast.Node} {m : List Piece}
    {sp : Option Range} {a b : Nat} {cr : Range} (hn : HasName p (some f.form) n name) (hw : ∀ w, n = some w → SafeName w) (hh : Holds name m)
    (he : ElemSem xml src c (p.inside (some name) (some f.form)) f nodes m) :
    TailSem xml src c p f n ps (.mk sp a b (.line cr) :: nodes) [.elem name ps m] := by
  refine ⟨⟨name, _, rfl, hn⟩, ?_, fun chain pr out rest h => ?_⟩
  · rw [itemsOf]
    exact .selectorArrow rfl he.okChain
  · cases h with
    | arrow h =>
      obtain ⟨rfl, s, ss, d, r, r2, kids, rfl, h1, h2⟩ := he.after _ _ _ _ _ h
      refine ⟨rfl, s :: ss, d, r, r2, kids, rfl, h1, fun t h hr hf hs ha ts ht => ?_⟩
      exact core_more hn hw hh (h2 h hr hf) hr hf hs ha ht

/-! ## `<( .. )>` -/

theorem first_visible {sp core pre post : List Node} {x n : Node} (hs : ∀ y ∈ sp, y.isVisible = false) (hx : x.isVisible = true)
    (he : sp ++ x :: core = pre ++ n :: post) (hp : ∀ y ∈ pre, y.isVisible = false) (hn : n.isVisible = true) :
    sp = pre ∧ x = n ∧ core = post := by
  induction sp generalizing pre with
  | nil =>
    cases pre with
    | nil => simpa using he
    | cons y pre =>
      simp at he
      have := hp y (by simp)
      rw [← he.1, hx] at this
      simp at this
  | cons z sp ih =>
    cases pre with
    | nil =>
      simp at he
      have := hs z (by simp)
      rw [he.1, hn] at this
      simp at this
    | cons y pre =>
      simp at he
      obtain ⟨rfl, he⟩ := he
      obtain ⟨rfl, h1, h2⟩ := ih (fun y hy => hs y (by simp [hy])) he (fun y hy => hp y (by simp [hy]))
      exact ⟨rfl, h1, h2⟩

theorem NSpaces.invisible {ns : List Node} (h : NSpaces ns) : ∀ y ∈ ns, y.isVisible = false := by
  intro y hy
  obtain ⟨r, s, rfl⟩ := h y hy
  rfl

theorem special_other {h : EHead} (h1 : ∀ k, h.ty ≠ .special k) (h2 : h.ty ≠ .multiline .code) : specialHead c h = h := by
  rw [specialHead]
  split
  · rename_i k hk; exact absurd hk (h1 k)
  · rename_i hk; exact absurd hk h2
  · rfl

theorem ItemSem.element {p : Spot} {f : ElementForm} {nodes : List Ast.Node} {m : List Piece} {o cl : Range} (hf : f ≠ .block)
    (he : ElemSem xml src c p f nodes m) (hsp : headSpace nodes = none) : ItemSem xml src c p .element (.inline o nodes (some cl)) m := by
  refine ⟨rfl, ⟨rfl, [], _, he.okLine, .inr rfl⟩, fun rg ns hi => ?_⟩
  cases hi with
  | inlineElement h1 h2 h3 =>
    obtain ⟨rfl, el, h4, s, ss, d', r, r2, kids, h5, h6, h7⟩ := he.line _ _ h1
    rw [hsp, h5] at h4
    have h4' := first_visible (sp := []) (core := []) (x := Spec.element ([] ++ s :: ss) (.standard d') r r2 kids) (by simp) rfl
      (by simpa [spaceBefore] using h4.symm) h2 rfl
    obtain ⟨rfl, h8, rfl⟩ := h4'
    rw [Spec.element] at h8
    injection h8 with h8 h9 h10
    subst h9 h10
    refine ⟨_, rfl, rfl, id, id, fun ts ht => ?_⟩
    rw [specialNodes, specialNode, special_other (by simp) (by simp), specialNodes, forestOf, treeOf, forestOf] at ht
    refine h7 _ rfl ?_ ts ht
    simp at h3
    subst h3
    exact h6.inline hf
  | inlineText h1 h2 =>
    obtain ⟨rfl, el, h4, s, ss, d', r, r2, kids, h5, h6, h7⟩ := he.line _ _ h1
    exact absurd ⟨(NSpaces.before _).invisible, _, _, _, _, rfl, rfl⟩ (h2 _ _ _ (by rw [h4, h5, Spec.element]))

theorem ItemSem.span {p : Spot} {v : Bool} {name : Str} {nodes : List Ast.Node} {m : List Piece} {o cl : Range} (hn : HasName p (some .line) none name)
    (hh : Holds name m) (hr : RowSem xml src c (p.inside (some name) (some .line)) true v nodes m) :
    ItemSem xml src c p .element (.inline o nodes (some cl)) [.elem name [] m] := by
  refine ⟨rfl, ⟨rfl, hr.lineOk⟩, fun rg ns hi => ?_⟩
  cases hi with
  | inlineElement h1 h2 h3 =>
    obtain ⟨rfl, core, _, h4, h5, h6, h7⟩ := hr.means _ _ h1
    exact absurd (by simp [isBlockLevel, h3]) (flat_row (sp := headSpace nodes) h6.flat _ (h4 ▸ List.mem_append_right _ (List.mem_cons_self ..))).1
  | inlineText h1 h2 =>
    obtain ⟨rfl, core, _, rfl, h5, h6, h7⟩ := hr.means _ _ h1
    refine ⟨_, rfl, rfl, id, id, fun ts ht => ?_⟩
    rw [specialNodes, Spec.element, specialNode, special_other (by simp) (by simp), specialNodes, forestOf, treeOf, forestOf] at ht
    dsimp only at ht
    rw [chainTree] at ht
    exact core_named (named_safe hn (by simp)) attrs_nil (fun fi la => named_sel hn (.inr ⟨rfl, rfl, rfl⟩) fi la) hh
      (body_after (.before _) h7) ht

/-! ## Blocks -/

/-- Comments in a line. -/
inductive CommentRow : List Piece → Prop
  | one {s} : CommentRow [.comment s]
  | more {s w m} : CommentRow m → CommentRow ([.comment s] ++ gapPieces w ++ m)

/-- A paragraph, an element or a line of comments. -/
inductive Unit (xml : Bool) (src : Str) (c : SpecialTagConfig) (p : Spot) : BlockKind → List Ast.Line → List Piece → Prop
  | paragraph {rows m name} : HasName p (some .paragraph) none name → Rows xml src c (p.inside (some name) (some .paragraph)) true true rows m → Holds name m →
      Unit xml src c p .paragraph rows [.elem name [] m]
  | plain {rows m} : Given p (some .paragraph) "" → Rows xml src c (p.inside none (some .paragraph)) true true rows m → Unit xml src c p .paragraph rows m
  | line {a nodes b m} : headSpace nodes = none → ElemSem xml src c p .line nodes m → Unit xml src c p .line [.mk a nodes b] m
  | block {f a nodes b m} : f ≠ .line → headSpace nodes = none → ElemSem xml src c p f nodes m → Unit xml src c p .block [.mk a nodes b] m
  | code {v a nodes b m} : headSpace nodes = none → RowSem xml src c p false v nodes m → Unit xml src c p .block [.mk a nodes b] m
  | comment {f a nodes b m} : headSpace nodes = none → RowSem xml src c p f false nodes m → CommentRow m → Unit xml src c p .comment [.mk a nodes b] m

/-- Units with empty lines between and after them; `v`: something before is visible. -/
inductive Blocks (xml : Bool) (src : Str) (c : SpecialTagConfig) (p : Spot) : Bool → BlockKind → List Ast.Line → List Piece → Prop
  | one {v k lines blanks m} : Unit xml src c p k lines m → Empty blanks → Blocks xml src c p v k (lines ++ blanks) m
  | more {v k k' lines blanks lines' m m'} : Unit xml src c p k lines m → Empty blanks →
      (k' = .paragraph ∨ k' = .comment → k ≠ .block → k ≠ .comment → blanks ≠ []) → Blocks xml src c p (v || k ≠ .comment) k' lines' m' →
      Blocks xml src c p v k (lines ++ (blanks ++ lines')) (m ++ between (v || k ≠ .comment) (blanks.length + 1) ++ m')

theorem Unit.ok {p : Spot} {k : BlockKind} {lines : List Ast.Line} {m : List Piece} (h : Unit xml src c p k lines m) : LinesOk src lines := by
  cases h with
  | paragraph _ h => exact h.ok
  | plain _ h => exact h.ok
  | line _ h => exact ⟨⟨[], _, h.okLine, .inr rfl⟩, trivial⟩
  | block _ _ h => exact ⟨⟨[], _, h.okLine, .inr rfl⟩, trivial⟩
  | code _ h => exact ⟨h.lineOk, trivial⟩
  | comment _ h _ => exact ⟨h.lineOk, trivial⟩

theorem Blocks.ok {p : Spot} {v : Bool} {k : BlockKind} {lines : List Ast.Line} {m : List Piece} (h : Blocks xml src c p v k lines m) : LinesOk src lines := by
  induction h with
  | one h he => exact linesOk_append.2 ⟨h.ok, linesOk_empty he⟩
  | more h he _ _ ih => exact linesOk_append.2 ⟨h.ok, linesOk_append.2 ⟨linesOk_empty he, ih⟩⟩

/-- The line of a row is a line of text. -/
theorem row_text {p : Spot} {v : Bool} {nodes : List Ast.Node} {m : List Piece} (hr : RowSem xml src c p true v nodes m) {out : List Node} {rest : List Ast.Node}
    (h : LineIs src nodes out rest) : ¬ StartsWithElement out := by
  rintro ⟨pre, n, post, h1, h2, h3, h4⟩
  obtain ⟨_, core, _, rfl, h5, h6, _⟩ := hr.means _ _ h
  exact (flat_row (sp := headSpace nodes) h6.flat n (h1 ▸ List.mem_append_right _ (List.mem_cons_self ..))).1 h4

theorem rows_text {p : Spot} {f v : Bool} {lines : List Ast.Line} {m : List Piece} (hr : Rows xml src c p f v lines m) (hf : f = true) {ls : List SrcLine} (h : LinesAre src lines ls) :
    ∀ l ∈ ls, l.isText := by
  induction hr generalizing ls with
  | one hr =>
    subst hf
    cases h with
    | blank => exact absurd rfl hr.ne
    | line h h' =>
      cases h'
      simp only [List.mem_singleton, forall_eq]
      exact row_text hr h
  | more hr _ ih =>
    simp only [Bool.and_eq_true] at hf
    obtain ⟨rfl, hf⟩ := hf
    cases h with
    | blank => exact absurd rfl hr.ne
    | line h h' =>
      intro l hl
      rcases List.mem_cons.1 hl with rfl | hl
      · exact row_text hr h
      · exact ih hf h' l hl

/-- An element is not a line of text. -/
theorem elem_starts {p : Spot} {f : ElementForm} {nodes : List Ast.Node} {m : List Piece} (he : ElemSem xml src c p f nodes m) {out : List Node}
    {rest : List Ast.Node} (h : LineIs src nodes out rest) : StartsWithElement out := by
  obtain ⟨_, el, rfl, s, ss, d, r, r2, kids, rfl, _⟩ := he.line _ _ h
  exact ⟨_, _, [], rfl, (NSpaces.before _).invisible, rfl, trivial⟩

/-- Nor is a code block. -/
theorem code_starts {p : Spot} {v : Bool} {nodes : List Ast.Node} {m : List Piece} (hr : RowSem xml src c p false v nodes m) {out : List Node}
    {rest : List Ast.Node} (h : LineIs src nodes out rest) : StartsWithElement out := by
  obtain ⟨_, core, h1, rfl, h2, h3, h4⟩ := hr.means _ _ h
  obtain ⟨n, rfl, h5, h6⟩ := h3.2.2 rfl
  exact ⟨_, _, [], rfl, (NSpaces.before _).invisible, h5, h6⟩

/-- Lines added to a paragraph. -/
theorem joined_rows {p : Spot} {f v : Bool} {lines : List Ast.Line} {m : List Piece} (hr : Rows xml src c p f v lines m) {run : List SrcLine} (hl : LinesAre src lines run) :
    ∀ {e e' : Nat} {r : Range} {h : EHead} {sp k : List Node} {m0 : List Piece} {n : Node}, NSem xml src c p k m0 → Joined e (.elem r h (sp ++ k)) run e' n →
      ∃ r' h' k', n = .elem r' h' (sp ++ k') ∧ h'.ty = h.ty ∧ h'.selectors = h.selectors ∧ h'.isRaw = h.isRaw ∧
        NSem xml src c p k' (m0 ++ .gap [' '] :: m) := by
  induction hr generalizing run with
  | @one _ _ a _ b _ hr =>
    intro e e' r h sp k m0 n hk hj
    cases hl with
    | blank => exact absurd rfl hr.ne
    | @line _ _ n nodes _ _ _ _ hl hl' =>
      cases hl'
      cases hj with
      | cons hj =>
        cases hj
        obtain ⟨rfl, core, _, rfl, h5, h6, h7⟩ := hr.means _ _ hl
        refine ⟨_, { h with range := { h.range with stop := b } }, k ++ (lineSep e a :: spaceBefore (headSpace (n :: nodes))) ++ core,
          by simp only [List.append_assoc, List.cons_append]; rfl, rfl, rfl, rfl, ?_⟩
        exact hk.gap h7 spaceIs_line blank_sep (.before _)
  | @more _ _ _ _ a _ b _ _ _ hr _ ih =>
    intro e e' r h sp k m0 n hk hj
    cases hl with
    | blank => exact absurd rfl hr.ne
    | @line _ _ y nodes _ _ _ _ hl hl' =>
      cases hj with
      | cons hj =>
        obtain ⟨rfl, core, _, rfl, h5, h6, h7⟩ := hr.means _ _ hl
        have h8 := hk.gap (r := ⟨e, a⟩) h7 spaceIs_line blank_sep (NSpaces.before (headSpace (y :: nodes)))
        rw [List.append_assoc] at hj
        obtain ⟨r', h', k', rfl, h9, h10, h11, h12⟩ := ih hl' (k := k ++ (lineSep e a :: spaceBefore (headSpace (y :: nodes))) ++ core) h8
          (by simpa [lineSep] using hj)
        refine ⟨r', h', k', rfl, h9, h10, h11, ?_⟩
        simpa using h12

theorem run_unique {a b a' b' : List SrcLine} (he : a ++ b = a' ++ b') (h1 : ∀ l ∈ a, l.isText) (h2 : ∀ l ∈ a', l.isText) (h3 : EndsRun b)
    (h4 : EndsRun b') : a = a' ∧ b = b' := by
  induction a generalizing a' with
  | nil =>
    cases a' with
    | nil => exact ⟨rfl, by simpa using he⟩
    | cons x a' =>
      simp at he
      subst he
      exact absurd (h2 x (by simp)) h3
  | cons y a ih =>
    cases a' with
    | nil =>
      simp at he
      subst he
      exact absurd (h1 y (by simp)) h4
    | cons x a' =>
      simp at he
      obtain ⟨rfl, he⟩ := he
      obtain ⟨rfl, rfl⟩ := ih he (fun l hl => h1 l (by simp [hl])) (fun l hl => h2 l (by simp [hl]))
      exact ⟨rfl, rfl⟩

/-- A paragraph. -/
theorem layout_paragraph {q : Spot} {g : Bool} {rows : List Ast.Line} {m : List Piece} {before : Bool} {e : Nat} {lu lr : List SrcLine} {ns : List Node}
    (hr : Rows xml src c q g true rows m) (hg : g = true) (hl : LinesAre src rows lu) (hend : EndsRun lr) (h : Layout true before e (lu ++ lr) ns) :
    ∃ a sp k e' out r hd, ns = (if before then [.text a (.space .paragraphEnd)] else []) ++ (.elem r hd (sp ++ k) :: out) ∧ NSpaces sp ∧
      hd.ty = .paragraph ∧ hd.selectors = [] ∧ hd.isRaw = false ∧ NSem xml src c q k m ∧ Layout true true e' lr out := by
  have first : ∀ {a b : Nat} {nodes : List Ast.Node} {m : List Piece} {ls' : List SrcLine} {out : List Node} {rest : List Ast.Node},
      RowSem xml src c q true true nodes m → LineIs src nodes out rest → (∀ l ∈ ls', l.isText) → Layout true before e (.line a b out :: (ls' ++ lr)) ns →
      ∃ e' p out', Joined b (.elem ⟨a, b⟩ (EHead.new ⟨a, b⟩ .paragraph) out) ls' e' p ∧ Layout true true e' lr out' ∧
        ns = (if before then [paragraphSep e a] else []) ++ p :: out' := by
    intro a b nodes m ls' out rest hr hli htx h
    have hns := row_text hr hli
    obtain ⟨_, core, hne, he, h5, h6, h7⟩ := hr.means _ _ hli
    have hv : ¬ ∀ n ∈ out, n.isVisible = false := fun hv => by
      obtain ⟨x, hx, hx'⟩ := List.any_eq_true.1 h5
      have := hv x (by rw [he]; simp [hx])
      rw [hx'] at this; simp at this
    generalize hg : ls' ++ lr = g at h
    generalize ho : out = o at h
    cases h with
    | empty => rw [ho] at he; simp [hne] at he
    | paragraph _ _ _ h1 h2 h3 h4 =>
      obtain ⟨rfl, rfl⟩ := run_unique hg htx h1 hend h2
      exact ⟨_, _, _, h3, h4, rfl⟩
    | continued h1 =>
      rcases h1 rfl with h1 | h1
      · exact absurd (ho ▸ h1) hns
      · exact absurd (ho ▸ h1) hv
    | other h1 =>
      rcases h1 rfl with h1 | h1
      · exact absurd (ho ▸ h1) hns
      · exact absurd (ho ▸ h1) hv
  cases hr with
  | one hr =>
    subst hg
    cases hl with
    | blank => exact absurd rfl hr.ne
    | line hl hl' =>
      cases hl'
      obtain ⟨e', p, out', h1, h2, rfl⟩ := first hr hl (ls' := []) (by simp) h
      obtain ⟨_, core, _, rfl, h5, h6, h7⟩ := hr.means _ _ hl
      cases h1
      exact ⟨_, _, _, _, _, _, _, rfl, .before _, rfl, rfl, rfl, h7, h2⟩
  | more hr hr' =>
    simp only [Bool.and_eq_true] at hg
    obtain ⟨rfl, hg⟩ := hg
    cases hl with
    | blank => exact absurd rfl hr.ne
    | line hl hl' =>
      obtain ⟨e', p, out', h1, h2, rfl⟩ := first hr hl (rows_text hr' hg hl') h
      obtain ⟨_, core, _, rfl, h5, h6, h7⟩ := hr.means _ _ hl
      obtain ⟨r', h', k', rfl, h9, h10, h11, h12⟩ := joined_rows hr' hl' h7 h1
      exact ⟨_, _, _, _, _, _, _, rfl, .before _, h9, h10, h11, h12, h2⟩

/-- What a paragraph or an element becomes: one element, whose name is written or follows from the tables, or comments. -/
def UnitMark (src : Str) (c : SpecialTagConfig) (p : Spot) (blk : List Node) (m : List Piece) : Prop :=
  (∃ n name ps m', blk = [n] ∧ m = [.elem name ps m'] ∧
    (firstName src (specialNode c n) = some name ∨ (firstName src (specialNode c n) = none ∧ ∃ f, HasName p (some f) none name))) ∨
  (CommentRow m ∧ ∀ n ∈ blk, n.isVisible = false) ∨ Given p (some .paragraph) ""

theorem firstName_element {s : Selector} {ss : List Selector} {d : Mty.Delim} {r r2 : Range} {kids : List Node} :
    firstName src (specialNode c (element (s :: ss) (.standard d) r r2 kids)) = (selOf src s).1 := by
  rw [element, specialNode, special_other (by simp) (by simp)]
  rfl

/-- A paragraph or an element, laid out. -/
theorem layout_unit {p : Spot} {k : BlockKind} {lines : List Ast.Line} {m : List Piece} {before : Bool} {e : Nat} {lu lr : List SrcLine} {ns : List Node}
    (hu : Unit xml src c p k lines m) (hl : LinesAre src lines lu) (hend : k ≠ .block → k ≠ .comment → EndsRun lr) (h : Layout true before e (lu ++ lr) ns) :
    ∃ a blk e' out, ns = (if before then [.text a (.space .paragraphEnd)] else []) ++ blk ++ out ∧
      NSem xml src c p blk m ∧ Layout true (before || k ≠ .comment) e' lr out ∧ UnitMark src c p blk m := by
  have elem : ∀ {f : ElementForm} {a b : Nat} {nodes : List Ast.Node} {m : List Piece} {out : List Node} {rest : List Ast.Node},
      headSpace nodes = none → ElemSem xml src c p f nodes m → LineIs src nodes out rest → (f = .line → EndsRun lr) → Layout true before e (.line a b out :: lr) ns →
      ∃ a blk e' out, ns = (if before then [.text a (.space .paragraphEnd)] else []) ++ blk ++ out ∧
        NSem xml src c p blk m ∧ Layout true true e' lr out ∧ UnitMark src c p blk m := by
    intro f a b nodes m out rest hsp he hli hend h
    have hst := elem_starts he hli
    obtain ⟨_, el, ho, s, ss, d, r, r2, kids, hel, hd, hc⟩ := he.line _ _ hli
    have hsem : NSem xml src c p [Spec.element (s :: ss) (.standard d) r r2 kids] m := by
      intro ts ht
      rw [specialNodes, Spec.element, specialNode, special_other (by simp) (by simp), specialNodes, forestOf, treeOf, forestOf] at ht
      exact hc _ rfl hd.form ts ht
    have hmark : UnitMark src c p [Spec.element (s :: ss) (.standard d) r r2 kids] m := by
      obtain ⟨s', ss', d', r', r2', kids', name, ps, m', g1, g2, g3⟩ := he.first _ _ hli
      rw [ho, hel] at g1
      have g4 := List.append_cancel_left g1
      simp only [List.nil_append, List.cons.injEq, and_true] at g4
      refine .inl ⟨_, name, ps, m', rfl, g2, ?_⟩
      rw [g4, firstName_element]
      cases hsel : (selOf src s').1 with
      | none => rw [hsel] at g3; exact .inr ⟨rfl, _, g3⟩
      | some w => rw [hsel, HasName] at g3; exact .inl (by rw [g3])
    rw [hel, hsp] at ho
    cases h with
    | empty => simp at ho
    | paragraph _ h1 => exact absurd hst h1
    | @continued _ _ _ _ nodes last run rest e' p' out h1 h2 h3 h4 h5 h6 =>
      obtain ⟨rfl, h7⟩ := List.append_inj' ho rfl
      simp only [List.nil_append, List.cons.injEq, and_true] at h7
      subst h7
      have hf : f = .line := by
        cases f with
        | line => rfl
        | block =>
          cases d with
          | block => exact absurd h2 id
          | line => exact absurd hd id
          | lineBlock => exact absurd hd id
        | lineBlock =>
          cases d with
          | lineBlock => exact absurd h2 id
          | line => exact absurd hd id
          | block => exact absurd hd id
      have := run_unique (a := run) (a' := []) (b' := run ++ rest) (by simp) h3 (by simp) h4 (hend hf)
      obtain ⟨rfl, _⟩ := this
      cases h5
      exact ⟨⟨e, a⟩, _, _, _, by cases before <;> simp [spaceBefore, paragraphSep], hsem, h6, hmark⟩
    | @other _ _ _ _ nodes last ls out h1 h2 h3 =>
      have hv : (nodes ++ [last]).any Node.isVisible = true := by
        rw [ho]; simp [Spec.element, Node.isVisible]
      rw [hv, Bool.or_true] at h3
      obtain ⟨rfl, h7⟩ := List.append_inj' ho rfl
      simp only [List.nil_append, List.cons.injEq, and_true] at h7
      subst h7
      exact ⟨⟨e, a⟩, _, _, _, by cases before <;> simp [spaceBefore, paragraphSep], hsem, h3, hmark⟩
  cases hu with
  | @paragraph _ _ name hn hr hh =>
    obtain ⟨a, sp, k, e', out, r, hd, rfl, h1, h2, h3, h4, h5, h6⟩ := layout_paragraph hr rfl hl (hend (by simp) (by simp)) h
    refine ⟨a, [_], e', out, by simp; rfl, fun ts ht => ?_, by simpa using h6, .inl ⟨_, name, _, _, rfl, rfl, .inr ⟨?_, _, hn⟩⟩⟩
    case refine_2 => rw [specialNode, special_other (by simp [h2]) (by simp [h2]), firstName, h3]; rfl
    rw [specialNodes, specialNode, special_other (by simp [h2]) (by simp [h2]), specialNodes, forestOf, treeOf, forestOf, h3, chainTree, h4, h2] at ht
    exact core_named (named_safe hn (by simp)) attrs_nil (fun fi la => named_sel hn (.inr ⟨rfl, rfl, rfl⟩) fi la) hh (body_after h1 h5) ht
  | plain hn hr =>
    obtain ⟨a, sp, k, e', out, r, hd, rfl, h1, h2, h3, h4, h5, h6⟩ := layout_paragraph hr rfl hl (hend (by simp) (by simp)) h
    refine ⟨a, [_], e', out, by simp; rfl, fun ts ht => ?_, by simpa using h6, .inr (.inr hn)⟩
    rw [specialNodes, specialNode, special_other (by simp [h2]) (by simp [h2]), specialNodes, forestOf, treeOf, forestOf, h3, chainTree, h4, h2] at ht
    obtain ⟨fi, la, rfl⟩ := ht.one
    rw [inferTree]
    have h7 : namedSel p.context (formOf .paragraph) fi la (p.grand = some "thead".toList) none = none := by
      have : nameIn p.context (formOf .paragraph) fi la (p.grand = some "thead".toList) = some "" := hn fi la
      simp only [namedSel, this]
    simp only [h7, Option.bind_none, Bool.false_or]
    obtain ⟨a', k', b', h8, h9, h10, h11⟩ := h5.body (b := []) h1 (by simp [NSpaces])
      (inferred (p.inside none (some .paragraph)) _ true)
    rw [List.append_nil] at h8
    have h12 : inferForest (contextInside none (formOf .paragraph)) none p.parent true (forestOf src (specialNodes c (sp ++ k))) = a' ++ k' ++ b' := h8
    rw [h12]
    exact h11.unnamed h9 h10
  | line hsp he =>
    cases hl with
    | blank => exact absurd rfl he.ne
    | line hl hl' =>
      cases hl'
      simpa using elem hsp he hl (fun _ => hend (by simp) (by simp)) h
  | block hf hsp he =>
    cases hl with
    | blank => exact absurd rfl he.ne
    | line hl hl' =>
      cases hl'
      simpa using elem hsp he hl (fun h => absurd h hf) h
  | @code v a nodes b _ hsp hr =>
    cases hl with
    | blank => exact absurd rfl hr.ne
    | line hl hl' =>
      cases hl'
      have hst := code_starts hr hl
      have hmk := hr.mark rfl _ _ hl
      obtain ⟨_, core, h1, rfl, h2, h3, h4⟩ := hr.means _ _ hl
      obtain ⟨n, rfl, hv, _⟩ := h3.2.2 rfl
      have hmk : UnitMark src c p [n] m := by
        obtain ⟨n', name, ps, m', g1, g2, g3⟩ := hmk
        have g4 := List.append_cancel_left g1
        simp only [List.cons.injEq, and_true] at g4
        exact .inl ⟨n, name, ps, m', rfl, g2, .inl (by rw [g4]; exact g3)⟩
      rw [hsp] at h hst
      simp only [spaceBefore, List.nil_append, List.cons_append] at h hst
      generalize ho : [n] = o at h hst
      cases h with
      | empty => simp at ho
      | paragraph _ h5 => exact absurd hst h5
      | continued _ h5 =>
        have := h3.1 n (by simp)
        obtain ⟨rfl, h7⟩ := List.append_inj' (s₁ := []) ho rfl
        simp only [List.cons.injEq, and_true] at h7
        subst h7
        exact absurd h5 this
      | other _ _ h5 =>
        rw [← ho] at h5
        obtain ⟨rfl, h7⟩ := List.append_inj' (s₁ := []) ho rfl
        simp only [List.cons.injEq, and_true] at h7
        subst h7
        simp only [List.any_cons, hv, Bool.true_or, Bool.or_true] at h5
        exact ⟨⟨e, a⟩, _, b, _, by simp only [List.append_assoc, List.cons_append, List.nil_append, paragraphSep]; rfl, h4, by simpa using h5, hmk⟩
  | @comment f a nodes b _ hsp hr hcr =>
    cases hl with
    | blank => exact absurd rfl hr.ne
    | line hl hl' =>
      cases hl'
      obtain ⟨_, core, h1, rfl, h2, h3, h4⟩ := hr.means _ _ hl
      rw [hsp] at h
      simp only [spaceBefore, List.nil_append, List.cons_append] at h
      have hns : ¬ ∃ n ∈ core, n.isVisible = true := fun hn => by
        rw [List.any_eq_true.2 hn] at h2; simp at h2
      cases h with
      | empty => exact absurd rfl h1
      | paragraph _ _ h5 => exact absurd h5 hns
      | continued _ h5 => exact absurd h5 (last_flat h3.1)
      | other _ _ h5 =>
        rw [h2, Bool.or_false] at h5
        exact ⟨⟨e, a⟩, _, b, _, by simp only [List.append_assoc, List.cons_append, List.nil_append, paragraphSep]; rfl, h4, by simpa using h5,
          .inr (.inl ⟨hcr, fun n hn => Bool.eq_false_iff.2 fun h => hns ⟨n, hn, h⟩⟩)⟩

/-- The lines of a paragraph or an element begin with a line that is not empty. -/
theorem unit_first {p : Spot} {k : BlockKind} {lines : List Ast.Line} {m : List Piece} (hu : Unit xml src c p k lines m) {ls rest : List SrcLine}
    (hl : LinesAre src lines ls) (hk : k ≠ .paragraph) (hk' : k ≠ .comment) : EndsRun (ls ++ rest) := by
  have : ∀ {f : ElementForm} {a b : Nat} {nodes : List Ast.Node} {ls : List SrcLine}, ElemSem xml src c p f nodes m → LinesAre src [.mk a nodes b] ls →
      EndsRun (ls ++ rest) := by
    intro f a b nodes ls he hl
    cases hl with
    | blank => exact absurd rfl he.ne
    | line hl hl' =>
      cases hl'
      exact fun h => h (elem_starts he hl)
  cases hu with
  | paragraph => exact absurd rfl hk
  | plain => exact absurd rfl hk
  | line _ he => exact this he hl
  | block _ _ he => exact this he hl
  | code _ hr =>
    cases hl with
    | blank => exact absurd rfl hr.ne
    | line hl hl' =>
      cases hl'
      exact fun h => h (code_starts hr hl)
  | comment => exact absurd rfl hk'

theorem blocks_first {p : Spot} {v : Bool} {k : BlockKind} {lines : List Ast.Line} {m : List Piece} (hb : Blocks xml src c p v k lines m) {ls : List SrcLine}
    (hl : LinesAre src lines ls) (hk : k ≠ .paragraph) (hk' : k ≠ .comment) : EndsRun ls := by
  cases hb with
  | one hu _ =>
    obtain ⟨la, lb, rfl, h1, h2⟩ := linesAre_append hl
    exact unit_first hu h1 hk hk'
  | more hu =>
    obtain ⟨la, lb, rfl, h1, h2⟩ := linesAre_append hl
    exact unit_first hu h1 hk hk'

theorem ends_empty {lines : List Ast.Line} {ls rest : List SrcLine} (he : Empty lines) (hl : LinesAre src lines ls) (hn : lines = [] → EndsRun rest) :
    EndsRun (ls ++ rest) := by
  cases hl with
  | nil => exact hn rfl
  | blank => exact id
  | line => obtain ⟨a, b, h⟩ := he _ (List.mem_cons_self ..); simp at h

/-- Empty lines before something. -/
theorem layout_blanks {ps before : Bool} {e : Nat} {lines : List Ast.Line} {ls rest : List SrcLine} {ns : List Node} (he : Empty lines)
    (hl : LinesAre src lines ls) (h : Layout ps before e (ls ++ rest) ns) :
    ∃ sp e' out, ns = sp ++ out ∧ (∀ n ∈ sp, ∃ r, n = .text r (.space .paragraphEnd)) ∧ Layout ps before e' rest out ∧ sp.length = lines.length := by
  induction lines generalizing e ls ns with
  | nil => cases hl; exact ⟨[], e, ns, rfl, by simp, h, rfl⟩
  | cons l lines ih =>
    obtain ⟨a, b, rfl⟩ := he l (by simp)
    cases hl with
    | blank hl =>
      rw [List.cons_append] at h
      cases h with
      | blank h =>
        obtain ⟨sp, e', out, rfl, h1, h2, h3⟩ := ih (fun l hl => he l (by simp [hl])) hl h
        refine ⟨_ :: sp, e', out, rfl, ?_, h2, by simp [h3]⟩
        intro n hn
        rcases List.mem_cons.1 hn with rfl | hn
        · exact ⟨_, rfl⟩
        · exact h1 n hn

theorem layout_blocks {p : Spot} {v : Bool} {k : BlockKind} {lines : List Ast.Line} {m : List Piece} (hb : Blocks xml src c p v k lines m) :
    ∀ {e : Nat} {ls : List SrcLine} {ns : List Node}, LinesAre src lines ls → Layout true v e ls ns →
      ∃ a k b, ns = (if v then [.text a (.space .paragraphEnd)] else []) ++ k ++ b ∧ NSpaces b ∧ NSem xml src c p k m := by
  induction hb with
  | one hu he =>
    intro e ls ns hl h
    obtain ⟨la, lb, rfl, h1, h2⟩ := linesAre_append hl
    obtain ⟨a, blk, e', out, rfl, h4, h5, -⟩ := layout_unit hu h1 (fun _ _ => by
      simpa using ends_empty (rest := []) he h2 (fun _ => trivial)) h
    exact ⟨a, blk, out, rfl, layout_empty he h2 h5, h4⟩
  | @more v k k' lines blanks lines' m m' hu he hk hb ih =>
    intro e ls ns hl h
    obtain ⟨la, lb, rfl, h1, h2⟩ := linesAre_append hl
    obtain ⟨lb, lc, rfl, h2, h2'⟩ := linesAre_append h2
    obtain ⟨a, blk, e', out, rfl, h4, h5, -⟩ := layout_unit hu h1 (fun hk' hk'' => by
      refine ends_empty he h2 fun hn => blocks_first hb h2' (fun hp => hk (.inl hp) hk' hk'' hn) (fun hp => hk (.inr hp) hk' hk'' hn)) h
    obtain ⟨sp1, e2, out2, rfl, h6, h7, h6'⟩ := layout_blanks he h2 h5
    obtain ⟨a2, k2, b2, rfl, h9, h10⟩ := ih h2' h7
    generalize (v || k ≠ .comment) = v' at *
    by_cases hg : v' = true ∨ 2 ≤ blanks.length + 1
    · have key : ∃ r tl, sp1 ++ (if v' then [.text a2 (.space .paragraphEnd)] else []) = .text r (.space .paragraphEnd) :: tl ∧ NSpaces tl := by
        cases sp1 with
        | nil =>
          rcases hg with hg | hg
          · rw [hg]; exact ⟨_, _, rfl, by simp [NSpaces]⟩
          · simp at h6'; omega
        | cons x sp1 =>
          obtain ⟨r, rfl⟩ := h6 x (by simp)
          refine ⟨r, sp1 ++ (if v' then [.text a2 (.space .paragraphEnd)] else []), by simp, ?_⟩
          intro n hn
          rcases List.mem_append.1 hn with hn | hn
          · obtain ⟨r, rfl⟩ := h6 n (by simp [hn]); exact ⟨_, _, rfl⟩
          · cases v' <;> simp at hn; exact ⟨_, _, hn⟩
      obtain ⟨r, tl, h11, h12⟩ := key
      refine ⟨a, blk ++ (.text r (.space .paragraphEnd) :: tl) ++ k2, b2, ?_, h9, ?_⟩
      · rw [← h11]
        simp
      · rw [between, if_pos hg]
        simpa using h4.gap h10 spaceIs_paragraph blank_sep h12
    · rw [between, if_neg hg]
      simp only [not_or, Bool.not_eq_true] at hg
      obtain ⟨rfl, hg⟩ := hg
      have : sp1 = [] := List.length_eq_zero_iff.1 (by omega)
      subst this
      exact ⟨a, blk ++ k2, b2, by simp, h9, by simpa using h4.append h10⟩

theorem content_blocks {p : Spot} {k : BlockKind} {lines : List Ast.Line} {m : List Piece} {start : Nat} {ns : List Node}
    (h : Blocks xml src c p false k lines m) (hc : ContentIs src true start lines ns) :
    ∃ sp k b, ns = sp ++ k ++ b ∧ NSpaces sp ∧ NSpaces b ∧ NSem xml src c p k m := by
  cases hc with
  | mk hl h' =>
    obtain ⟨a, k, b, rfl, h2, h3⟩ := layout_blocks h hl h'
    exact ⟨[], k, b, by simp, by simp [NSpaces], h2, h3⟩

/-- `selector { .. }` -/
theorem TailSem.block {p : Spot} {n : Option Str} {name : Str} {ps : List Spec.Part} {m : List Piece} {k : BlockKind}
    {sp : Option Range} {a b s e : Nat} {l cl : Range} {lines : List Ast.Line}
    (hn : HasName p (some .block) n name) (hw : ∀ w, n = some w → SafeName w) (hh : Holds name m)
    (hr : Blocks xml src c (p.inside (some name) (some .block)) false k lines m) :
    TailSem xml src c p .block n ps [.mk sp a b (.block l (.mk s lines e) (some cl))] [.elem name ps m] := by
  refine ⟨⟨name, _, rfl, hn⟩, ?_, fun chain pr out rest h => ?_⟩
  · rw [itemsOf]
    exact .selectorBlock rfl ⟨rfl, hr.ok⟩
  · cases h with
    | block h =>
      obtain ⟨sp, k, bb, rfl, h2, h3, h4⟩ := content_blocks hr h
      refine ⟨rfl, [], .block ⟨pr.start, b⟩, _, _, _, by rw [List.append_nil], trivial, fun t h hr hf hs ha ts ht => ?_⟩
      exact core_one hn hw hh (body_around h2 h3 h4) hr hf hs ha ht

end Mty.Write
