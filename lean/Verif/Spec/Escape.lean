import Verif.Model.Str

/-!
# Specification of backslash escapes (independent of the model of the code)

After `/repo/README.md:512-560` (table "All valid escapes").
-/

namespace Mty.Spec

/-- Value of a hexadecimal digit, by position in the digit strings. -/
def hexVal (c : Char) : Option Nat :=
  ("0123456789abcdef".toList.idxOf? c).or ("0123456789ABCDEF".toList.idxOf? c)

/-- `ds` is a non-empty string of hexadecimal digits denoting `n` (most significant first). -/
inductive HexNum : Str → Nat → Prop
  | one {c d} : hexVal c = some d → HexNum [c] d
  | snoc {ds n c d} : HexNum ds n → hexVal c = some d → HexNum (ds ++ [c]) (n * 16 + d)

/-- `EscSeq e c`: the characters `e` after a backslash denote the character `c`. -/
inductive EscSeq : Str → Char → Prop
  | tab : EscSeq ['t'] '\t'
  | newline : EscSeq ['n'] '\n'
  | cr : EscSeq ['r'] '\r'
  | self {c} : c ∈ ['<', '>', '{', '}', '"', '\'', '\\', '[', ']'] → EscSeq [c] c
  | byte {a b : Char} {n} (h : Nat.isValidChar n) :
      HexNum [a, b] n → n ≤ 0x7f → EscSeq ['x', a, b] (Char.ofNatAux n h)
  | unicode {ds : Str} {n} (h : Nat.isValidChar n) :
      HexNum ds n → ds.length ≤ 6 → EscSeq ('u' :: '{' :: ds ++ ['}']) (Char.ofNatAux n h)

/-- The sequences the code accepts beyond the manual: a `+` sign before the digits. -/
inductive PlusSeq : Str → Char → Prop
  | byte {a : Char} {n} (h : Nat.isValidChar n) :
      HexNum [a] n → PlusSeq ['x', '+', a] (Char.ofNatAux n h)
  | unicode {ds : Str} {n} (h : Nat.isValidChar n) :
      HexNum ds n → ds.length ≤ 5 → PlusSeq ('u' :: '{' :: '+' :: ds ++ ['}']) (Char.ofNatAux n h)

/-- What the code accepts after a backslash. -/
def Accepted (e : Str) (c : Char) : Prop := EscSeq e c ∨ PlusSeq e c

/-- `Unescapes E s t`: reading `s` and resolving the escape sequences `E` gives `t`. -/
inductive Unescapes (E : Str → Char → Prop) : Str → Str → Prop
  | nil : Unescapes E [] []
  | plain {c s t} : c ≠ '\\' → Unescapes E s t → Unescapes E (c :: s) (c :: t)
  | esc {e c s t} : E e c → Unescapes E s t → Unescapes E ('\\' :: e ++ s) (c :: t)

/-- `Scan E p s rs`: reading `s`, which starts at byte position `p`, the invalid escape sequences are
located at the ranges `rs`: each range starts at a backslash after which no escape sequence is
readable, and covers that backslash, the following character if there is one, and possibly
some more. Everything outside the ranges is plain text or a valid escape. -/
inductive Scan (E : Str → Char → Prop) : Nat → Str → List Range → Prop
  | nil {p} : Scan E p [] []
  | plain {p c s rs} : c ≠ '\\' → Scan E (p + c.utf8Size) s rs → Scan E p (c :: s) rs
  | esc {p e c s rs} : E e c → Scan E (p + 1 + byteLen e) s rs → Scan E p ('\\' :: e ++ s) rs
  | bad {p e s rs} :
      (∀ e₁ e₂ c, e ++ s = e₁ ++ e₂ → ¬ E e₁ c) →
      (e = [] → s = []) →
      Scan E (p + 1 + byteLen e) s rs →
      Scan E p ('\\' :: e ++ s) (⟨p, p + 1 + byteLen e⟩ :: rs)

end Mty.Spec
