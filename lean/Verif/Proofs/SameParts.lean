import Verif.Spec.Same

/-! # Selectors with the same id, classes and attributes -/

set_option autoImplicit false

namespace Mty.Spec

theorem SameParts.of_eq {a b : List Part} (h : a = b) : SameParts a b := h ▸ ⟨rfl, rfl, rfl⟩

theorem SameParts.symm {a b : List Part} (h : SameParts a b) : SameParts b a := ⟨h.1.symm, h.2.1.symm, h.2.2.symm⟩

theorem SameParts.trans {a b c : List Part} (h : SameParts a b) (k : SameParts b c) : SameParts a c :=
  ⟨h.1.trans k.1, h.2.1.trans k.2.1, h.2.2.trans k.2.2⟩

theorem firstId_append (a b : List Part) : firstId (a ++ b) = (firstId a).or (firstId b) := by
  induction a with
  | nil => rfl
  | cons p a ih => cases p <;> first | rfl | exact ih

theorem classList_append (a b : List Part) : classList (a ++ b) = classList a ++ classList b := List.filterMap_append

theorem attributeList_append (a b : List Part) : attributeList (a ++ b) = attributeList a ++ attributeList b := List.filterMap_append

theorem SameParts.append {a b c d : List Part} (h : SameParts a b) (k : SameParts c d) : SameParts (a ++ c) (b ++ d) := by
  refine ⟨?_, ?_, ?_⟩
  · rw [firstId_append, firstId_append, h.1, k.1]
  · rw [classList_append, classList_append, h.2.1, k.2.1]
  · rw [attributeList_append, attributeList_append, h.2.2, k.2.2]

end Mty.Spec
