import Verif.Model.Str
import Mathlib.Data.List.Forall2

/-! # Trimming of multiline blocks (independent of the model of the code) -/

namespace Mty.Spec

/-- Unicode `White_Space` code points (UCD `PropList.txt`). -/
def whiteSpace : List Nat :=
  [0x9, 0xa, 0xb, 0xc, 0xd, 0x20, 0x85, 0xa0, 0x1680, 0x2000, 0x2001, 0x2002, 0x2003, 0x2004,
   0x2005, 0x2006, 0x2007, 0x2008, 0x2009, 0x200a, 0x2028, 0x2029, 0x202f, 0x205f, 0x3000]

/-- Lines joined by line feeds, none after the last line. -/
def joinLines : List Str → Str
  | [] => []
  | [l] => l
  | l :: ls => l ++ '\n' :: joinLines ls

/-- `Dedent pre l l'`: `l'` is `l` without the indentation `pre`, or `l` itself if it is not
indented by `pre`. -/
inductive Dedent (pre : Str) : Str → Str → Prop
  | strip (l) : Dedent pre (pre ++ l) l
  | keep (l) : ¬ pre <+: l → Dedent pre l l

/-- `Indentation pre last`: `pre` is the longest prefix of `last` consisting of white space. -/
def Indentation (pre last : Str) : Prop :=
  (∀ c ∈ pre, c.toNat ∈ whiteSpace) ∧
    ∃ rest, last = pre ++ rest ∧ ∀ c r, rest = c :: r → c.toNat ∉ whiteSpace

/-- The line before the closing line may end in `CR LF`; the `CR` belongs to the line break. -/
inductive DropCr : Str → Str → Prop
  | cr (l) : DropCr (l ++ ['\r']) l
  | none (l) : (∀ l', l ≠ l' ++ ['\r']) → DropCr l l

/-- `Trimmed s body`: `s` is an opening line, content lines and a closing line (separated by line
feeds), and `body` is the content lines with the indentation of the closing line removed from
each line that has it, joined by line feeds. -/
inductive Trimmed : Str → Str → Prop
  | mk {first last pre : Str} {lines : List Str} {l l₁ l₂ : Str} {lines' : List Str} :
      '\n' ∉ first → '\n' ∉ last → (∀ x ∈ lines ++ [l], '\n' ∉ x) →
      Indentation pre last → DropCr l l₁ → Dedent pre l₁ l₂ →
      List.Forall₂ (Dedent pre) lines lines' →
      Trimmed (joinLines ([first] ++ lines ++ [l, last])) (joinLines (lines' ++ [l₂]))

end Mty.Spec
