import Verif.Spec.Structure
import Verif.Spec.Multiline
import Verif.Spec.Infer
import Verif.Model.Config

/-!
# Specification: when two sources say the same

`Same c s1 s2 d1 d2`: the syntax tree `d1` of the source `s1` and the syntax tree `d2` of the source `s2` agree in everything that is
meant to matter: the texts, comments, selectors and blocks, their order and nesting, and the white space between texts. They need not agree
in positions, indentation, white space before `>` and `{` in an element, whether the id, the classes or the attributes of a selector come
first, ids after the first one, the quotation marks of attribute values, the delimiters of
verbatim texts, `*` for a missing name, and whether inline formatting is written in its short form: `<# x #>` or `<(strong> x)>`.

`c` are the configured tags of the short forms.
-/

set_option autoImplicit false

namespace Mty.Spec

section
variable (c : SpecialTagConfig) (s1 s2 : Str)

/-- The two ranges have the same text. -/
def SameSlice (a b : Range) : Prop := a.slice s1 = b.slice s2

/-- The same block of text, or the same lines with another indentation. The line of the closing delimiter has this indentation, and so have
all lines of the block. The last line of the block is not empty. -/
inductive SameBlock : Str → Str → Prop
  | same (x) : SameBlock x x
  | indented {pre pre' : Str} {ls : List Str} {l : Str} : (∀ c ∈ pre, c = ' ' ∨ c = '\t') → (∀ c ∈ pre', c = ' ' ∨ c = '\t') →
      (∀ x ∈ ls ++ [l], '\n' ∉ x) → l ≠ [] → l.getLast? ≠ some '\r' →
      SameBlock (joinLines ([] :: (ls ++ [l]).map (pre ++ ·) ++ [pre])) (joinLines ([] :: (ls ++ [l]).map (pre' ++ ·) ++ [pre']))

/-- The same white space, or none at all. -/
def SameSpace : Option Range → Option Range → Prop
  | none, none => True
  | some a, some b => SameSlice s1 s2 a b
  | _, _ => False

/-- The same text, verbatim text, comment or interpolation. -/
inductive SameText : Ast.InlineText → Ast.InlineText → Prop
  | segment {a b} : SameSlice s1 s2 a b → SameText (.segment a) (.segment b)
  /-- Only what is between the delimiters counts. -/
  | verbatim {o o' raw raw' t t'} : SameSlice s1 s2 (verbatimRange t) (verbatimRange t') → raw.isSome = raw'.isSome →
      SameText (.verbatim o raw t) (.verbatim o' raw' t')
  | comment {a b : Ast.Comment} : SameSlice s1 s2 a.inner b.inner → a.close.isSome = b.close.isSome → SameText (.comment a) (.comment b)
  | interpolation {a b} : SameSlice s1 s2 a b → SameText (.interpolation a) (.interpolation b)

/-- The first id. -/
def firstId : List Part → Option Str
  | [] => none
  | .id v :: _ => some v
  | _ :: l => firstId l

/-- The classes. -/
def classList (l : List Part) : List Str := l.filterMap fun | .cls v => some v | _ => none

/-- The attributes. -/
def attributeList (l : List Part) : List (Str × Option Str) := l.filterMap fun | .attribute n v => some (n, v) | _ => none

/-- The same first id, the same classes in the same order and the same attributes in the same order. How the id, the classes and the
attributes are mixed does not matter, and neither do further ids. -/
def SameParts (a b : List Part) : Prop := firstId a = firstId b ∧ classList a = classList b ∧ attributeList a = attributeList b

/-- The same name, if there is one, and the same id, classes and attributes. -/
def SameSelector (a b : Ast.Selector) : Prop :=
  writtenName s1 a = writtenName s2 b ∧ SameParts (writtenParts s1 a) (writtenParts s2 b) ∧ (SelectorOk a ↔ SelectorOk b)

/-- The name of the element that a short form stands for. -/
def shortName : Ast.SpecialForm → Str
  | .emphasis => c.emphasis.getD "em".toList
  | .strong => c.strong.getD "strong".toList
  | .underline => c.underline.getD "u".toList
  | .strike => c.strike.getD "s".toList
  | .quote => c.quote.getD "q".toList

/-- The name of the element for inline code. -/
def codeName : Str := c.code.getD "code".toList

/-- Text, comments and inline elements only. -/
def Phrasing (ns : List Ast.Node) : Prop := ∀ n ∈ ns, nodeShape n = .inl ∨ nodeShape n = .comment

/-- What is read after a node: between items, after a selector, after a `>`. -/
def next (st : LineSt) (ty : Ast.NodeType) : LineSt :=
  match ty, st with
  | .selector _, _ => .selector
  | .line _, _ => .arrow
  | .text (.comment _), .selector => .selector
  | _, _ => .top

/-- The white space before the node counts: not in the head of an element, that is between a selector and `>`, between `>` and a
selector, or before a `{`. -/
def spaceCounts (st : LineSt) (ty : Ast.NodeType) : Bool :=
  match st, ty with
  | .top, _ => true
  | .selector, _ => false
  | .arrow, .selector _ => false
  | .arrow, .line _ => false
  | .arrow, .block _ _ _ => false
  | .arrow, _ => true

mutual
  /-- Two nodes of the syntax trees that say the same. -/
  inductive SameType : Ast.NodeType → Ast.NodeType → Prop
    | text {t t'} : SameText s1 s2 t t' → SameType (.text t) (.text t')
    | multiline {k a b a' b'} : SameBlock (Range.slice ⟨a, b⟩ s1) (Range.slice ⟨a', b'⟩ s2) → SameType (.multiline k a b) (.multiline k a' b')
    | code {r r'} : SameSlice s1 s2 ⟨r.start + 2, r.stop - 2⟩ ⟨r'.start + 2, r'.stop - 2⟩ → SameType (.code r) (.code r')
    | selector {s s'} : SameSelector s1 s2 s s' → SameType (.selector s) (.selector s')
    | line {r r'} : SameType (.line r) (.line r')
    | block {l l' a a' lines lines' b b' r r'} : SameLines lines lines' → r.isSome = r'.isSome →
        SameType (.block l (.mk a lines b) r) (.block l' (.mk a' lines' b') r')
    | inline {o o' ns ns' r r'} : SameNodes .top ns ns' → r.isSome = r'.isSome → SameType (.inline o ns r) (.inline o' ns' r')
    | special {f o o' a a' lines lines' b b' r r'} : SameLines lines lines' → r.isSome = r'.isSome →
        SameType (.special f o (.mk a lines b) r) (.special f o' (.mk a' lines' b') r')
    /-- `<# x #>` says the same as `<(strong> x)>`, and so on. The tag must be one for phrasing content. -/
    | short {f o o' s a b e x y sp sp' n n' ty ty' ns ns' r r' sel a1 b1 a2 b2 g sp2} :
        contextOfName (shortName c f) = some .paragraph →
        writtenName s2 sel = some (shortName c f) → writtenParts s2 sel = [] → SelectorOk sel →
        Phrasing (.mk sp n x ty :: ns) → SameType ty ty' → SameNodes .top ns ns' → r.isSome = r'.isSome →
        SameType (.special f o (.mk s [.mk a (.mk sp n x ty :: ns) b] e) r)
          (.inline o' (.mk none a1 b1 (.selector sel) :: .mk sp2 a2 b2 (.line g) :: .mk sp' n' y ty' :: ns') r')
    /-- `` <`x`> `` says the same as `<(code> <[[x]]>)>`. -/
    | shortCode {k o o' y sp' n' t r' sel a1 b1 a2 b2 g sp2} :
        contextOfName (codeName c) = some .paragraph →
        writtenName s2 sel = some (codeName c) → writtenParts s2 sel = [] → SelectorOk sel →
        SameSlice s1 s2 ⟨k.start + 2, k.stop - 2⟩ (verbatimRange t) → r'.isSome = true →
        SameType (.code k)
          (.inline o' (.mk none a1 b1 (.selector sel) :: .mk sp2 a2 b2 (.line g) :: [.mk sp' n' y (.text (.verbatim o none t))]) r')
  /-- Two lines, or what is left of them. -/
  inductive SameNodes : LineSt → List Ast.Node → List Ast.Node → Prop
    | nil {st} : SameNodes st [] []
    | cons {st sp sp' a a' b b' ty ty' ns ns'} : (spaceCounts st ty = true → SameSpace s1 s2 sp sp') → SameType ty ty' →
        SameNodes (next st ty) ns ns' → SameNodes st (.mk sp a b ty :: ns) (.mk sp' a' b' ty' :: ns')
  /-- The same lines. -/
  inductive SameLines : List Ast.Line → List Ast.Line → Prop
    | nil : SameLines [] []
    | cons {a a' ns ns' b b' ls ls'} : SameNodes .top ns ns' → SameLines ls ls' → SameLines (.mk a ns b :: ls) (.mk a' ns' b' :: ls')
end

/-- The two syntax trees say the same. -/
inductive Same : Ast.Document → Ast.Document → Prop
  | mk {a a' lines lines' b b'} : SameLines c s1 s2 lines lines' → Same ⟨.mk a lines b⟩ ⟨.mk a' lines' b'⟩

end

end Mty.Spec
