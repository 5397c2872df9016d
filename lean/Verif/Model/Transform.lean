import Verif.Model.Output

/-! # Special tags, page completion and language (`/repo/mintyml/src/transform/*.rs`) -/

namespace Mty

/-! ## `apply_special_tags.rs` -/

/-- `TransformContext::tag_name` (`/repo/mintyml/src/transform/apply_special_tags.rs:26-38`). The
last case reads `emphasis`, as the code does (line 36). -/
def specialTagName (c : SpecialTagConfig) : SpecialKind → Str
  | .emphasis => c.emphasis.getD "em".toList
  | .strong => c.strong.getD "strong".toList
  | .underline => c.underline.getD "u".toList
  | .strike => c.strike.getD "s".toList
  | .quote => c.quote.getD "q".toList
  | .code => c.code.getD "code".toList
  | .codeBlockContainer => c.emphasis.getD "pre".toList

/-- The match of `transform_element`
(`/repo/mintyml/src/transform/apply_special_tags.rs:60-73`). -/
def specialHead (c : SpecialTagConfig) (h : EHead) : EHead :=
  match h.ty with
  | .special kind => h.applyTags [.provided (specialTagName c kind)]
  | .multiline .code =>
    h.applyTags [.provided (specialTagName c .codeBlockContainer), .provided (specialTagName c .code)]
  | _ => h

mutual
  /-- `transform_node`/`transform_element`
  (`/repo/mintyml/src/transform/apply_special_tags.rs:49-77`); they never fail. -/
  def specialNode (c : SpecialTagConfig) : Node → Node
    | .text r t => .text r t
    | .elem r h children => .elem r (specialHead c h) (specialNodes c children)
  /-- `transform_content` (`/repo/mintyml/src/transform/apply_special_tags.rs:40-47`). -/
  def specialNodes (c : SpecialTagConfig) : List Node → List Node
    | [] => []
    | n :: ns => specialNode c n :: specialNodes c ns
end

/-- `apply_special_tags` (`/repo/mintyml/src/transform/apply_special_tags.rs:11-18`). -/
def applySpecialTags (cfg : OutputConfig) (doc : Document) : Document :=
  { doc with nodes := specialNodes cfg.specialTags doc.nodes }

/-! ## `complete_page.rs` -/

/-- `METADATA_TAGS` (`/repo/mintyml/src/transform/complete_page.rs:12`). -/
def metadataTags : List Str :=
  ["base".toList, "link".toList, "meta".toList, "title".toList, "style".toList]

/-- `has_tag_in` and the test of `extract_element_with_tag_in`
(`/repo/mintyml/src/transform/complete_page.rs:15-48`). -/
def hasTagIn (src : Str) (n : Node) (tags : List Str) : Bool :=
  match n with
  | .text _ _ => false
  | .elem _ h _ =>
    match h.selectors.head?.bind fun s => s.tag.name with
    | some tag => tags.any fun t => eqIgnoreAsciiCase (tag.asStr src) t
    | none => false

/-- `mem::take(&mut e.content.nodes)` (`/repo/mintyml/src/transform/complete_page.rs:85`). -/
def Node.children : Node → List Node
  | .text _ _ => []
  | .elem _ _ ch => ch

/-- `Element::new(INVALID, Unknown {}).with_tag(tag)`
(`/repo/mintyml/src/transform/complete_page.rs:62,74-77`). -/
def pageElement (tag : Str) : EHead :=
  (EHead.new Range.INVALID .unknown).applyTags [.provided tag]

/-- The `filter_map` of `complete_page` (`/repo/mintyml/src/transform/complete_page.rs:83-93`):
nodes of the head and nodes of the body. -/
def splitPage (src : Str) : List Node → List Node × List Node
  | [] => ([], [])
  | n :: ns =>
    let (head, body) := splitPage src ns
    if hasTagIn src n ["head".toList] then (n.children ++ head, body)
    else if hasTagIn src n metadataTags then (n :: head, body)
    else (head, n :: body)

/-- `complete_page` (`/repo/mintyml/src/transform/complete_page.rs:51-110`). -/
def completePage (src : Str) (doc : Document) : Document :=
  if doc.nodes.any fun n => hasTagIn src n ["html".toList] then doc
  else
    let root := { pageElement "html".toList with contentRange := doc.contentRange }
    let inner :=
      if doc.nodes.any fun n => hasTagIn src n ["body".toList] then doc.nodes
      else
        let (head, body) := splitPage src doc.nodes
        [Node.ofElem (pageElement "head".toList) head,
         .text Range.INVALID (.space .paragraphEnd),
         Node.ofElem (pageElement "body".toList) body]
    { doc with nodes := [Node.ofElem root inner] }

/-! ## `mod.rs` -/

/-- `selectors.iter_mut().find(|s| !s.uninferred())` with the update of `apply_lang`
(`/repo/mintyml/src/transform/mod.rs:24-39`). -/
def langSelectors (lang : Str) : List Selector → List Selector
  | [] => []
  | s :: ss =>
    if !s.uninferred then
      let range : Range := ⟨s.range.stop, s.range.stop⟩
      { s with items := s.items ++ [.attributes range
          [{ range, name := .provided "lang".toList, value := some (.provided lang) }]] } :: ss
    else s :: langSelectors lang ss

/-- The body of the loop of `apply_lang` (`/repo/mintyml/src/transform/mod.rs:20-40`). -/
def langNode (lang : Str) : Node → Node
  | .text r t => .text r t
  | .elem r h ch => .elem r { h with selectors := langSelectors lang h.selectors } ch

/-- `apply_lang` (`/repo/mintyml/src/transform/mod.rs:17-43`). -/
def applyLang (doc : Document) (lang : Option Str) : Document :=
  match lang with
  | some l => { doc with nodes := doc.nodes.map (langNode l) }
  | none => doc

end Mty
