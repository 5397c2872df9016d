import Verif.Spec.Ranges
import Verif.Model.Reporter

/-!
# Specification: what the messages of errors say

`debug` stands for how Rust's `{:?}` shows a string: in quotation marks, with special characters escaped.
-/

set_option autoImplicit false

namespace Mty.Spec

/-- What is wrong with a document that can be parsed: exactly the four descriptions a user can see. Items are named by
`ItemType.display`. -/
inductive Complaint where
  | escape
  | unclosed
  | invalid (item : ItemType)
  | mustBeFollowed (item other : ItemType)
  | mustNotBeFollowed (item other : ItemType)
  | mustNotFollow (item other : ItemType)

/-- The message for a complaint about the text shown as `quoted`. -/
def Complaint.text (quoted : Str) : Complaint → Str
  | .escape => "Invalid escape sequence ".toList ++ quoted ++ ".".toList
  | .unclosed => "Unclosed delimiter ".toList ++ quoted
  | .invalid i => "Invalid ".toList ++ i.display
  | .mustBeFollowed i o => i.display ++ " must be followed by ".toList ++ o.display
  | .mustNotBeFollowed i o => i.display ++ " must not be followed by ".toList ++ o.display
  | .mustNotFollow i o => i.display ++ " must not follow ".toList ++ o.display

/-- Which complaint an error is. A document that was parsed has no other errors. -/
inductive Complains : SyntaxErrorKind → Complaint → Prop
  | escape : Complains .invalidEscape .escape
  | unclosed (d : UnclosedKind) : Complains (.unclosed d) .unclosed
  | invalid (i : ItemType) : Complains (.invalidItem i) (.invalid i)
  | mustBeFollowed (i o : ItemType) : Complains (.misplacedItem (.mustPrecede i [o])) (.mustBeFollowed i o)
  | mustNotBeFollowed (i o : ItemType) : Complains (.misplacedItem (.mustNotPrecede i [o])) (.mustNotBeFollowed i o)
  | mustNotFollow (i o : ItemType) : Complains (.misplacedItem (.mustNotFollow [o] i)) (.mustNotFollow i o)

/-- The opening delimiters of what can be left unclosed. -/
inductive Opens : UnclosedKind → Str → Prop
  | block : Opens .block "{".toList
  | inline : Opens .inline "<(".toList
  | comment : Opens .comment "<!".toList
  | attributes : Opens .attributeList "[".toList
  | emphasis : Opens (.specialInline .emphasis) "</".toList
  | strong : Opens (.specialInline .strong) "<#".toList
  | underline : Opens (.specialInline .underline) "<_".toList
  | strike : Opens (.specialInline .strike) "<~".toList
  | quote : Opens (.specialInline .quote) "<\"".toList

/-- The text of the source at `r`, as messages show it: what stands there, or `end-of-file` if nothing follows. -/
inductive Shown (debug : Str → Str) (src : Str) (r : Range) : Str → Prop
  | text (a m b : Str) (hs : src = a ++ (m ++ b)) (hr : r = ⟨byteLen a, byteLen (a ++ m)⟩) (hn : m ++ b ≠ []) : Shown debug src r (debug m)
  | eof (hr : r = ⟨byteLen src, byteLen src⟩) : Shown debug src r "end-of-file".toList

/-- What the message of an error is: what could not be parsed and what was expected there, or the complaint. -/
inductive MessageOf (debug : Str → Str) (src : Str) : SyntaxError → Str → Prop
  | parse (r : Range) (expected : List Str) (q : Str) (hq : Shown debug src r q) :
      MessageOf debug src ⟨r, .parseFailed expected⟩ ("Unexpected ".toList ++ q ++ ". Expected ".toList ++ " | ".toList.intercalate expected)
  | complaint (r : Range) (k : SyntaxErrorKind) (c : Complaint) (q : Str) (hq : Shown debug src r q) (hk : Complains k c) :
      MessageOf debug src ⟨r, k⟩ (c.text q)

/-- How the command line names a source. -/
def sourceLabel : Cli.StreamName → Str
  | .file f => f
  | .stdio => "<stdin>".toList

/-- How the command line shows a position: `start..<stop`, or only `start` if there is nothing between. -/
def positionLabel (r : Range) : Str :=
  (toString r.start).toList ++ (if r.start < r.stop then "..<".toList ++ (toString r.stop).toList else [])

end Mty.Spec
