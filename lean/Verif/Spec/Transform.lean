import Verif.Model.Config
import Verif.Spec.Infer

/-!
# Specification: special tags, completed pages, `lang` and metadata (independent of the code)
-/

namespace Mty.Spec

/-! ## Special tags -/

/-- The tag of a special element: the configured one, otherwise the default of the manual. -/
def configuredTag (c : SpecialTagConfig) : SpecialKind → Str
  | .emphasis => c.emphasis.getD "em".toList
  | .strong => c.strong.getD "strong".toList
  | .underline => c.underline.getD "u".toList
  | .strike => c.strike.getD "s".toList
  | .quote => c.quote.getD "q".toList
  | .code => c.code.getD "code".toList
  | .codeBlockContainer => c.codeBlockContainer.getD "pre".toList

/-- Selectors that consist of the given names; empty names do not wrap. -/
def wrapIn (names : List Str) : List (Option Str × List SelectorItem) :=
  (names.filter (· ≠ [])).map fun n => (some n, [])

/-- The second node is the first one with the tags of `c` on the special elements and code blocks, the
latter in an element named `container`. -/
inductive SpecialTagged (src : Str) (c : SpecialTagConfig) (container : Str) : Node → Node → Prop
  | text {r t} : SpecialTagged src c container (.text r t) (.text r t)
  | elem {r h h' ch ch'} :
      (∀ k, h.ty = .special k → h'.selectors.map (selOf src) = wrapIn [configuredTag c k]) →
      (h.ty = .multiline .code →
        h'.selectors.map (selOf src) = wrapIn [container, configuredTag c .code]) →
      ((∀ k, h.ty ≠ .special k) → h.ty ≠ .multiline .code → h'.selectors = h.selectors) →
      h' = { h with selectors := h'.selectors } →
      List.Forall₂ (SpecialTagged src c container) ch ch' →
      SpecialTagged src c container (.elem r h ch) (.elem r h' ch')

/-! ## Completed pages -/

/-- Elements whose (first) name is one of the given ones; case does not matter. -/
def isNamed (src : Str) (names : List String) : Node → Bool
  | .text _ _ => false
  | .elem _ h _ =>
    match h.selectors.head?.bind fun s => s.tag.name with
    | some n => names.any fun m => (n.asStr src).map Char.toLower = m.toList
    | none => false

/-- The children of a node. -/
def childrenOf : Node → List Node
  | .text _ _ => []
  | .elem _ _ ch => ch

/-- The elements of the head that may be written at top level. -/
def headContentNames : List String := ["base", "link", "meta", "title", "style"]

/-- What goes into the head: the contents of `head` elements and elements for metadata. -/
def headNodes (src : Str) (nodes : List Node) : List Node :=
  nodes.flatMap fun n =>
    if isNamed src ["head"] n then childrenOf n
    else if isNamed src headContentNames n then [n]
    else []

/-- What goes into the body: everything else. -/
def bodyNodes (src : Str) (nodes : List Node) : List Node :=
  nodes.filter fun n => !isNamed src ["head"] n && !isNamed src headContentNames n

/-- An element with a name and nothing else. -/
def plainTree (name : String) (children : List Tree) : Tree :=
  .elem none false false (some (some name.toList, [])) children

/-- A selector that is just `html`, `head` or `body`. -/
def isPagePart (s : Option Str × List SelectorItem) : Bool :=
  s.2.isEmpty &&
    match s.1 with
    | some n => ["html", "head", "body"].any fun m => n.map Char.toLower = m.toList
    | none => false

mutual
  /-- The selectors of all elements, in order. -/
  def nodeSelectors : Node → List Selector
    | .text _ _ => []
    | .elem _ h ch => h.selectors ++ nodesSelectors ch
  def nodesSelectors : List Node → List Selector
    | [] => []
    | n :: ns => nodeSelectors n ++ nodesSelectors ns
end

/-! ## Language -/

/-- The second node is the first one with an attribute `lang` with the given value if it is an element
with a name. Nothing else differs. -/
inductive LangAdded (lang : Str) : Node → Node → Prop
  | text {r t} : LangAdded lang (.text r t) (.text r t)
  | named {r h s ch loc} : h.selectors = [s] → s.tag.name.isSome →
      LangAdded lang (.elem r h ch)
        (.elem r { h with selectors := [{ s with items := s.items ++ [.attributes loc
          [{ range := loc, name := .provided "lang".toList, value := some (.provided lang) }]] }] } ch)
  | unnamed {r h ch} : (∀ s ∈ h.selectors, s.tag.name = none) → LangAdded lang (.elem r h ch) (.elem r h ch)

/-! ## Metadata -/

/-- Attributes whose name is `xmlns:mty` or begins with `mty:`. -/
def isMetadata (a : Attribute) : Bool :=
  match a.name with
  | .provided n => n = "xmlns:mty".toList || "mty:".toList.isPrefixOf n
  | .fromSource _ => false

/-- Classes, ids and attributes without metadata; attributes are taken one by one. -/
def eraseItems (items : List SelectorItem) : List SelectorItem :=
  items.flatMap fun
    | .attributes _ as => (as.filter fun a => !isMetadata a).map fun a => .attributes a.range [a]
    | i => [i]

mutual
  /-- A document without metadata attributes. -/
  def eraseNode : Node → Node
    | .text r t => .text r t
    | .elem r h ch =>
      .elem r { h with selectors := h.selectors.map fun s => { s with items := eraseItems s.items } }
        (eraseNodes ch)
  def eraseNodes : List Node → List Node
    | [] => []
    | n :: ns => eraseNode n :: eraseNodes ns
end

/-- The metadata of an element: names and values. `root`: it is at top level. -/
def metadataOf (root raw : Bool) (range content : Range) : List (String × Str) :=
  (if root then [("xmlns:mty", "tag:youngspe.github.io,2024:mintyml/metadata".toList)] else []) ++
  (if raw then [("mty:raw", "true".toList)] else []) ++
  (if range.start ≤ range.stop then
    [("mty:start", (toString range.start).toList), ("mty:end", (toString range.stop).toList)]
   else []) ++
  (if content.start ≤ content.stop then
    [("mty:content-start", (toString content.start).toList),
     ("mty:content-end", (toString content.stop).toList)]
   else [])

/-- In the second node every element with a name has its metadata as additional attributes. Nothing
else differs from the first node. -/
inductive MetadataAdded : Bool → Node → Node → Prop
  | text {root r t} : MetadataAdded root (.text r t) (.text r t)
  | unnamed {root r h ch ch'} : (∀ s ∈ h.selectors, s.tag.name = none) →
      List.Forall₂ (MetadataAdded false) ch ch' → MetadataAdded root (.elem r h ch) (.elem r h ch')
  | named {root r h s s' ch ch'} : h.selectors = [s] → s.tag.name.isSome →
      s' = { s with items := s'.items } → eraseItems s'.items = eraseItems s.items →
      s'.attributes = s.attributes ++ (metadataOf root h.isRaw r h.contentRange).map
        (fun p => (.provided p.1.toList, some (.provided p.2))) →
      List.Forall₂ (MetadataAdded false) ch ch' →
      MetadataAdded root (.elem r h ch) (.elem r { h with selectors := [s'] } ch')

mutual
  /-- Each text with whether it is written without escaping: interpolations, and in HTML also text that
  was built for elements like `style` or is inside of an element with raw content. -/
  def nodeTextModes (xml raw : Bool) : Node → List (Text × Bool)
    | .text _ (.text t) => [(t, t.raw || (!xml && (!t.escapeOut || raw)))]
    | .text _ _ => []
    | .elem _ h ch => nodesTextModes xml (raw || h.isRaw) ch
  def nodesTextModes (xml raw : Bool) : List Node → List (Text × Bool)
    | [] => []
    | n :: ns => nodeTextModes xml raw n ++ nodesTextModes xml raw ns
end

/-- The texts that are written without escaping. -/
def rawTexts (xml : Bool) (nodes : List Node) : List (Text × Bool) :=
  (nodesTextModes xml false nodes).filter (·.2)

/-! ## Names -/

/-- Elements of the second tree with one of the given names have that name in the first tree too. -/
inductive NotIntroduced (names : List Str) : Tree → Tree → Prop
  | leaf {t} : NotIntroduced names (.leaf t) (.leaf t)
  | elem {f raw raw' fmt sel sel' ch ch'} :
      (∀ n ∈ names, sel'.bind (·.1) = some n → sel.bind (·.1) = some n) →
      List.Forall₂ (NotIntroduced names) ch ch' →
      NotIntroduced names (.elem f raw fmt sel ch) (.elem f raw' fmt sel' ch')

/-- There is no element with the given name. -/
inductive NoneNamed (name : Str) : Tree → Prop
  | leaf {t} : NoneNamed name (.leaf t)
  | elem {f raw fmt sel ch} : sel.bind (·.1) ≠ some name → (∀ c ∈ ch, NoneNamed name c) →
      NoneNamed name (.elem f raw fmt sel ch)

end Mty.Spec
