import Verif.Model.Doc

/-! # Tag inference (`/repo/mintyml/src/inference/**`) -/

namespace Mty

namespace Infer

/-- `InferencePredicateContext` (`/repo/mintyml/src/inference/engine/mod.rs:322-327`) without
`src`. -/
inductive PredCx where
  | mk (nodes : List Node) (index : Nat) (parent : Option PredCx)

namespace PredCx

/-- Field `nodes` (`/repo/mintyml/src/inference/engine/mod.rs:324`). -/
def nodes : PredCx → List Node
  | .mk ns _ _ => ns

/-- Field `index` (`/repo/mintyml/src/inference/engine/mod.rs:326`). -/
def index : PredCx → Nat
  | .mk _ i _ => i

/-- Field `parent` (`/repo/mintyml/src/inference/engine/mod.rs:325`). -/
def parent : PredCx → Option PredCx
  | .mk _ _ p => p

/-- `nodes.get(index)` if it is an element, as in `match_this_element`
(`/repo/mintyml/src/inference/engine/mod.rs:330-354`). -/
def this (cx : PredCx) : Option EHead := cx.nodes[cx.index]?.bind Node.asElement

end PredCx

/-- `InferencePredicate` (`/repo/mintyml/src/inference/engine/mod.rs:376-386`): `none` is
`Err(Incomplete)`. -/
abbrev Pred := Str → PredCx → Option Bool

/-- `element_where` (`/repo/mintyml/src/inference/engine/when.rs:80-85`). -/
def elementWhere (f : EHead → Bool) : Pred := fun _ cx =>
  match cx.this with
  | some h => some (f h)
  | none => some false

/-- `paragraph` (`/repo/mintyml/src/inference/engine/when.rs:91-93`). -/
def paragraph : Pred := elementWhere fun h => match h.ty with
  | .paragraph => true
  | _ => false

/-- `line` (`/repo/mintyml/src/inference/engine/when.rs:99-111`). -/
def line : Pred := elementWhere fun h => match h.ty with
  | .standard (.line _) | .standard (.lineBlock _ _) => true
  | .inline (some (.line _)) | .inline (some (.lineBlock _ _)) | .inline none => true
  | _ => false

/-- `block` (`/repo/mintyml/src/inference/engine/when.rs:113-122`). -/
def block : Pred := elementWhere fun h => match h.ty with
  | .standard (.block _) => true
  | _ => false

/-- `tag_where` (`/repo/mintyml/src/inference/engine/when.rs:134-149`). -/
def tagWhere (f : Str → Bool) : Pred := fun src cx =>
  match cx.this with
  | some h =>
    match h.selectors with
    | s :: _ =>
      match s.tag with
      | .explicit v => some (f (v.asStr src))
      | _ => none
    | [] => some false
  | none => some false

/-- `tag` (`/repo/mintyml/src/inference/engine/when.rs:124-126`). -/
def tag (t : String) : Pred := tagWhere fun s => s == t.toList

/-- `tag_in` (`/repo/mintyml/src/inference/engine/when.rs:128-132`). -/
def tagIn (ts : List String) : Pred := tagWhere fun s => ts.any fun t => s == t.toList

/-- `any` (`/repo/mintyml/src/inference/engine/when.rs:151-153`). -/
def any : Pred := fun _ _ => some true

/-- `child_of` (`/repo/mintyml/src/inference/engine/when.rs:155-159`). -/
def childOf (p : Pred) : Pred := fun src cx =>
  some ((cx.parent.bind fun cx => p src cx).getD false)

/-- `Result::and` for test results (Rust std; used in `/repo/mintyml/src/inference/engine/when.rs:193`). -/
def andRes (a b : Option Bool) : Option Bool :=
  match a with
  | some _ => b
  | none => none

/-- The loop of `before`/`after` (`/repo/mintyml/src/inference/engine/when.rs:188-203`) over the
given indices. -/
def relativeLoop (p : Pred) (src : Str) (cx : PredCx) : Option Bool → List Nat → Option Bool
  | out, [] => out
  | out, i :: is =>
    match p src (.mk cx.nodes i cx.parent) with
    | some true => some true
    | res => relativeLoop p src cx (andRes out res) is

/-- `before` (`/repo/mintyml/src/inference/engine/when.rs:220`): indices after this one. -/
def before (p : Pred) : Pred := fun src cx =>
  relativeLoop p src cx (some false)
    ((List.range cx.nodes.length).drop (cx.index + 1))

/-- `after` (`/repo/mintyml/src/inference/engine/when.rs:221`): indices before this one. -/
def after (p : Pred) : Pred := fun src cx =>
  relativeLoop p src cx (some false) (List.range cx.index)

/-- `AndPredicate` (`/repo/mintyml/src/inference/engine/when/ops.rs:63-77`). -/
def andP (p q : Pred) : Pred := fun src cx =>
  match p src cx with
  | some false => some false
  | r =>
    match q src cx with
    | some false => some false
    | r' => andRes r r'

/-- `OrPredicate` (`/repo/mintyml/src/inference/engine/when/ops.rs:84-98`). -/
def orP (p q : Pred) : Pred := fun src cx =>
  match p src cx with
  | some true => some true
  | r =>
    match q src cx with
    | some true => some true
    | r' => andRes r r'

/-- `NotPredicate` (`/repo/mintyml/src/inference/engine/when/ops.rs:105-111`). -/
def notP (p : Pred) : Pred := fun src cx => (p src cx).map not

/-- `first` (`/repo/mintyml/src/inference/engine/when.rs:161-163`). -/
def first : Pred := notP (after any)

/-- `last` (`/repo/mintyml/src/inference/engine/when.rs:165-167`). -/
def last : Pred := notP (before any)

/-- The predicate of `default` (`/repo/mintyml/src/inference/engine/mod.rs:88-90,116-118`). -/
def defaultP : Pred := orP (orP line block) paragraph

/-- `InferTest::test` for a chain of `InferenceDefinitionPair`s
(`/repo/mintyml/src/inference/engine/mod.rs:136-178`): `error i` is `Err(i)`. -/
def defTest {α : Type} (src : Str) (cx : PredCx) :
    List (Pred × α) → Nat → Nat → Except Nat (Option α)
  | [], _, _ => .ok none
  | (p, v) :: rest, index, start =>
    if start ≤ index then
      match p src cx with
      | none => .error index
      | some true => .ok (some v)
      | some false => defTest src cx rest (index + 1) start
    else defTest src cx rest (index + 1) start

/-! ## Definitions -/

/-- The implementations of `Infer` (`/repo/mintyml/src/inference/definitions/*.rs`). -/
inductive Method where
  | standard | phrasing | raw
  | root | list | descriptionList | optGroup | select | map | details | label | fieldSet | picture
  | table | row | colGroup
deriving DecidableEq, Repr

/-- `contains_phrasing` (`/repo/mintyml/src/inference/definitions/mod.rs:7-14`). -/
def containsPhrasing (t : Str) : Bool :=
  ["p", "h1", "h2", "h3", "h4", "h5", "h6", "span", "b", "i", "q", "s", "u",
   "button", "caption", "cite", "code", "data", "dfn", "dt", "em", "kbd", "legend",
   "mark", "meter", "option", "output", "pre", "progress", "samp", "small", "strong",
   "sub", "summary", "sup", "textarea", "time", "var"].any fun n => t == n.toList

/-- `contains_blocks` (`/repo/mintyml/src/inference/definitions/mod.rs:17-22`). -/
def containsBlocks (t : Str) : Bool :=
  ["div", "section", "article", "header", "footer", "main", "hgroup", "body",
   "dialog", "nav", "aside", "template", "figure", "blockquote"].any fun n => t == n.toList

/-- `is_void` (`/repo/mintyml/src/inference/definitions/mod.rs:25-30`). -/
def isVoid (t : Str) : Bool :=
  ["area", "base", "br", "col", "embed", "hr", "img", "input", "link", "meta",
   "param", "source", "track", "wbr"].any fun n => t == n.toList

/-- `common_methods` (`/repo/mintyml/src/inference/definitions/mod.rs:32-59`). -/
def commonMethods : List (Pred × Method) :=
  [(orP (tagWhere containsPhrasing) (tagWhere isVoid), .phrasing),
   (tag "html", .root),
   (tagWhere containsBlocks, .standard),
   (tagIn ["ul", "ol", "menu"], .list),
   (tagIn ["table", "thead", "tbody", "tfoot"], .table),
   (tagIn ["tr"], .row),
   (tagIn ["colgroup"], .colGroup),
   (tag "dl", .descriptionList),
   (tagIn ["optgroup", "datalist"], .optGroup),
   (tag "select", .select),
   (tag "map", .map),
   (tag "details", .details),
   (tag "label", .label),
   (tag "fieldset", .fieldSet),
   (tag "picture", .picture),
   (tagIn ["style", "script"], .raw)]

/-- `StandardInfer::define_methods` (`/repo/mintyml/src/inference/definitions/mod.rs:70-75`). -/
def standardMethods : List (Pred × Method) :=
  commonMethods ++ [(orP line paragraph, .phrasing), (defaultP, .standard)]

/-- `PhrasingInfer::define_methods` (`/repo/mintyml/src/inference/definitions/mod.rs:87-96`). -/
def phrasingMethods : List (Pred × Method) :=
  commonMethods ++
    [(orP (tagWhere containsPhrasing) (tagWhere containsBlocks), .phrasing),
     (block, .standard), (defaultP, .phrasing)]

/-- `define_methods` of each implementation; the default is that of `StandardInfer`
(`/repo/mintyml/src/inference/engine/mod.rs:210-212`). -/
def Method.methods : Method → List (Pred × Method)
  | .phrasing => phrasingMethods
  | _ => standardMethods

/-- `StandardInfer::define_tags` (`/repo/mintyml/src/inference/definitions/mod.rs:66-68`). -/
def standardTags : List (Pred × String) := [(orP line paragraph, "p"), (defaultP, "div")]

/-- `define_tags` of each implementation: `/repo/mintyml/src/inference/definitions/mod.rs:83-85`
(phrasing), 104-106 (raw); `specialty.rs:10-15` (root), 23-25 (list), 33-35 (description list),
43-45 (option group), 53-55 (select), 63-65 (map), 73-77 (details), 85-89 (label), 97-101 (field
set), 109-113 (picture); `table.rs:8-10` (table), 18-22 (row), 30-32 (column group). -/
def Method.tags : Method → List (Pred × String)
  | .standard => standardTags
  | .phrasing => [(paragraph, ""), (defaultP, "span")]
  | .raw => standardTags
  | .root => [(andP first paragraph, "title"), (first, "head"), (defaultP, "body")]
  | .list => [(defaultP, "li")]
  | .descriptionList => [(line, "dt"), (defaultP, "dd")]
  | .optGroup => [(defaultP, "option")]
  | .select => [(block, "optgroup"), (defaultP, "option")]
  | .map => [(defaultP, "area")]
  | .details => (first, "summary") :: standardTags
  | .label => (line, "input") :: standardTags
  | .fieldSet => (andP first paragraph, "legend") :: standardTags
  | .picture => [(andP line last, "img"), (line, "source")]
  | .table => [(defaultP, "tr")]
  | .row => [(childOf (childOf (tag "thead")), "th"), (defaultP, "td")]
  | .colGroup => [(defaultP, "col")]

/-- `root_is_raw` (`/repo/mintyml/src/inference/engine/mod.rs:214-216`,
`definitions/mod.rs:107-109`). -/
def Method.rootIsRaw : Method → Bool
  | .raw => true
  | _ => false

/-! ## Engine -/

/-- The value of a tag definition (`/repo/mintyml/src/inference/engine/mod.rs:81-84`) applied to a
node. -/
def applyTag (t : String) : Node → Node
  | .elem r h ch => .elem r (h.applyTags [.provided t.toList]) ch
  | n => n

/-- `Inferrer::infer_tag_node` (`/repo/mintyml/src/inference/engine/mod.rs:400-444`). A state is
`none` if resolved, `some i` for `Err(i)`. Result: nodes, states, newly resolved. -/
def inferTagNode (src : Str) (defs : List (Pred × String)) (parent : Option PredCx)
    (nodes : List Node) (states : List (Option Nat)) (index : Nat) :
    List Node × List (Option Nat) × Bool :=
  match states[index]? with
  | some (some start) =>
    match nodes[index]? with
    | none => (nodes, states, false)
    | some node =>
      if ((node.asElement.bind fun h => h.selectors.head?).bind fun s => s.tag.name).isSome then
        (nodes, states.set index none, true)
      else
        match defTest src (.mk nodes index parent) defs 0 start with
        | .ok (some t) => (nodes.set index (applyTag t node), states.set index none, true)
        | .ok none => (nodes, states.set index none, true)
        | .error i => (nodes, states.set index (some i), false)
  | _ => (nodes, states, false)

/-- One pass of `infer_tag_nodes` over the given indices
(`/repo/mintyml/src/inference/engine/mod.rs:451-457`): nodes, states, `resolved_count`. -/
def inferTagPass (src : Str) (defs : List (Pred × String)) (parent : Option PredCx) :
    List Nat → List Node → List (Option Nat) → List Node × List (Option Nat) × Nat
  | [], nodes, states => (nodes, states, 0)
  | i :: is, nodes, states =>
    let (nodes, states, b) := inferTagNode src defs parent nodes states i
    let (nodes, states, c) := inferTagPass src defs parent is nodes states
    (nodes, states, (if b then 1 else 0) + c)

/-- The loop of `Inferrer::infer_tag_nodes` (`/repo/mintyml/src/inference/engine/mod.rs:446-468`).
The first argument bounds the number of passes (every pass but the last resolves a node). -/
def inferTagLoop (src : Str) (defs : List (Pred × String)) (parent : Option PredCx) :
    Nat → Bool → Nat → List Node → List (Option Nat) → List Node × List (Option Nat)
  | 0, _, _, nodes, states => (nodes, states)
  | fuel + 1, reverse, total, nodes, states =>
    let indices := List.range nodes.length
    let indices := if reverse then indices.reverse else indices
    let (nodes, states, count) := inferTagPass src defs parent indices nodes states
    let total := total + count
    if total = nodes.length ∨ count = 0 then (nodes, states)
    else inferTagLoop src defs parent fuel (!reverse) total nodes states

/-- `Inferrer::infer_tag_nodes` with the initial states of `use_method`
(`/repo/mintyml/src/inference/engine/mod.rs:446-468,475-479`). The first pass goes forward:
`direction_precedence` of an `InferWhen` is the default (`when.rs:13-17` does not forward it). -/
def inferTagNodes (src : Str) (defs : List (Pred × String)) (parent : Option PredCx)
    (nodes : List Node) : List Node :=
  (inferTagLoop src defs parent (nodes.length + 1) false 0 nodes
    (List.replicate nodes.length (some 0))).1

/-- The loop that finds the method (`/repo/mintyml/src/inference/engine/mod.rs:512-524`). The first
argument bounds the iterations (the start index grows). -/
def methodLoop (src : Str) (cx : PredCx) (methods : List (Pred × Method)) : Nat → Nat → Method
  | 0, _ => .standard
  | fuel + 1, start =>
    match defTest src cx methods 0 start with
    | .ok m => m.getD .standard
    | .error i => methodLoop src cx methods fuel (i + 1)

/-- `Inferrer::inference_level` (`/repo/mintyml/src/inference/engine/mod.rs:500-544`);
`rec` is `method.get_inner().infer(..)`, that is `use_method` for the children. -/
def inferenceLevel (rec : Method → Option PredCx → List Node → List Node) (src : Str)
    (methods : List (Pred × Method)) (parent : Option PredCx) (nodes : List Node) (index : Nat) :
    List Node :=
  match nodes[index]? with
  | some (.elem r h ch) =>
    let (h', ch') := splitFirst h ch
    let nodes := nodes.set index (.elem r h' [])
    let cx := PredCx.mk nodes index parent
    let method := methodLoop src cx methods (methods.length + 1) 0
    let ch'' := rec method (some cx) ch'
    nodes.set index (.elem r { h' with isRaw := h'.isRaw || method.rootIsRaw } ch'')
  | _ => nodes

/-- `Inferrer::use_method` (`/repo/mintyml/src/inference/engine/mod.rs:470-484`) of the given
implementation (`DynInfer::infer`, lines 225-227). The first argument bounds the depth of the
tree. -/
def useMethod (src : Str) : Nat → Method → Option PredCx → List Node → List Node
  | 0, _, _, nodes => nodes
  | fuel + 1, m, parent, nodes =>
    let nodes := inferTagNodes src m.tags parent nodes
    (List.range nodes.length).foldl
      (fun nodes i => inferenceLevel (useMethod src fuel) src m.methods parent nodes i) nodes

mutual
  /-- A bound for the depth of the tree after inference (bound for the recursion of
  `/repo/mintyml/src/inference/engine/mod.rs:500-544`). -/
  def nodeDepth : Node → Nat
    | .text _ _ => 0
    | .elem _ h ch => h.selectors.length + 1 + nodesDepth ch
  /-- See `nodeDepth` (`/repo/mintyml/src/inference/engine/mod.rs:500-544`). -/
  def nodesDepth : List Node → Nat
    | [] => 1
    | n :: ns => max (nodeDepth n) (nodesDepth ns)
end

/-- `infer` (`/repo/mintyml/src/inference/engine/mod.rs:547-554`). -/
def infer (src : Str) (nodes : List Node) : List Node :=
  useMethod src (nodesDepth nodes + 1) .standard none nodes

end Infer

end Mty
