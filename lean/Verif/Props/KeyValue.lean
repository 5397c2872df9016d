import Verif.Model.KeyValue
import Verif.Spec.KeyValue
import Verif.Props.Cli
import Mathlib.Data.List.Forall2

/-! # C54: overrides of special tags on the command line -/

set_option autoImplicit false

namespace Mty
open Cli Spec

theorem splitKey_some {sep : Char} {s k v : Str} : splitKey sep s = some (k, v) ↔ s = k ++ sep :: v ∧ sep ∉ k := by
  induction s generalizing k with
  | nil => simp [splitKey]
  | cons c s ih =>
    rw [splitKey]
    by_cases h : c = sep
    · subst h
      simp only [if_true, Option.some.injEq, Prod.mk.injEq]
      constructor
      · rintro ⟨rfl, rfl⟩; simp
      · rintro ⟨h, h'⟩
        cases k with
        | nil => simp at h; simp [h]
        | cons d k => simp at h h'; exact absurd h.1 h'.1
    · simp only [h, if_false, Option.map_eq_some_iff, Prod.exists, Prod.mk.injEq]
      constructor
      · rintro ⟨k', v', h1, rfl, rfl⟩
        obtain ⟨rfl, h3⟩ := ih.mp h1
        exact ⟨rfl, by simp [h3, Ne.symm h]⟩
      · rintro ⟨h1, h2⟩
        cases k with
        | nil => simp at h1; exact absurd h1.1 h
        | cons d k =>
          simp at h1 h2
          obtain ⟨rfl, rfl⟩ := h1
          exact ⟨k, v, ih.mpr ⟨rfl, h2.2⟩, rfl, rfl⟩

theorem parse_name {s : Str} {k : SpecialTag} : SpecialTag.parse s = some k ↔ s = overrideName k := by
  constructor
  · rw [SpecialTag.parse]
    intro h
    repeat' split at h
    all_goals first | (cases h; assumption) | cases h
  · rintro rfl; cases k <;> rfl

theorem name_plain (k : SpecialTag) : '=' ∉ overrideName k ∧ ',' ∉ overrideName k := by
  cases k <;> decide

theorem parseKeyValue_some {s : Str} {kv : SpecialTag × Str} : parseKeyValue s = some kv ↔ s = overrideText kv := by
  obtain ⟨k, v⟩ := kv
  rw [parseKeyValue, overrideText]
  constructor
  · intro h
    split at h
    · cases h
    · rename_i k' v' hs
      simp only [Option.map_eq_some_iff, Prod.mk.injEq] at h
      obtain ⟨k1, h1, rfl, rfl⟩ := h
      obtain ⟨rfl, -⟩ := splitKey_some.mp hs
      rw [parse_name.mp h1]
  · rintro rfl
    rw [splitKey_some.mpr ⟨rfl, (name_plain k).1⟩]
    simp [parse_name.mpr rfl]

theorem parseValues_some {l : List Str} {kvs : List (SpecialTag × Str)} : parseValues l = some kvs ↔ l = kvs.map overrideText := by
  induction l generalizing kvs with
  | nil => cases kvs <;> simp [parseValues]
  | cons s rest ih =>
    rw [parseValues]
    constructor
    · intro h
      split at h
      · cases h
      · rename_i kv hk
        simp only [Option.map_eq_some_iff] at h
        obtain ⟨r, h1, rfl⟩ := h
        rw [List.map_cons, ← ih.mp h1, parseKeyValue_some.mp hk]
    · intro h
      cases kvs with
      | nil => cases h
      | cons kv kvs =>
        simp only [List.map_cons, List.cons.injEq] at h
        rw [parseKeyValue_some.mpr h.1]
        simp only
        rw [ih.mpr h.2]; rfl

theorem splitValues_ne (s : Str) : splitValues s ≠ [] := by
  cases s with
  | nil => simp [splitValues]
  | cons c s => rw [splitValues]; split <;> [simp; (split <;> simp)]

theorem splitValues_plain {w : Str} (h : ',' ∉ w) : splitValues w = [w] := by
  induction w with
  | nil => rfl
  | cons c w ih =>
    simp at h
    rw [splitValues, if_neg (Ne.symm h.1), ih h.2]

theorem splitValues_comma {w : Str} (h : ',' ∉ w) (s : Str) : splitValues (w ++ ',' :: s) = w :: splitValues s := by
  induction w with
  | nil => simp [splitValues]
  | cons c w ih =>
    simp at h
    rw [List.cons_append, splitValues, if_neg (Ne.symm h.1), ih h.2]

theorem splitValues_eq (s : Str) : (∀ w ∈ splitValues s, ',' ∉ w) ∧ s = (List.intersperse [','] (splitValues s)).flatten := by
  induction s with
  | nil => simp [splitValues]
  | cons c s ih =>
    rw [splitValues]
    have hne := splitValues_ne s
    split
    · rename_i hc
      subst hc
      refine ⟨by simpa using ih.1, ?_⟩
      cases hs : splitValues s with
      | nil => exact absurd hs hne
      | cons w ws =>
        rw [hs] at ih
        simp [← ih.2]
    · rename_i hc
      split
      · rename_i h; exact absurd h hne
      · rename_i w ws hs
        rw [hs] at ih
        refine ⟨?_, ?_⟩
        · intro x hx
          rcases List.mem_cons.mp hx with rfl | hx
          · simp [Ne.symm hc, ih.1 w (by simp)]
          · exact ih.1 x (by simp [hx])
        · have h2 := ih.2
          cases ws with
          | nil => simp at h2 ⊢; exact h2
          | cons w' ws => simp at h2 ⊢; exact h2

theorem overrideText_plain {kv : SpecialTag × Str} (h : ',' ∉ kv.2) : ',' ∉ overrideText kv := by
  simp [overrideText, (name_plain kv.1).2, h]

theorem splitValues_overrides {l : List (SpecialTag × Str)} (h : l ≠ []) (hc : ∀ kv ∈ l, ',' ∉ kv.2) :
    splitValues (overridesText l) = l.map overrideText := by
  induction l with
  | nil => exact absurd rfl h
  | cons kv l ih =>
    have h1 := overrideText_plain (hc kv (by simp))
    cases l with
    | nil => rw [overridesText, splitValues_plain h1]; rfl
    | cons kv' l =>
      rw [overridesText, splitValues_comma h1, ih (by simp) (fun k hk => hc k (by simp [hk]))]
      · rfl
      · simp

theorem overrides_of_split {s : Str} {l : List (SpecialTag × Str)} (h : splitValues s = l.map overrideText) : Overrides s l := by
  obtain ⟨h1, h2⟩ := splitValues_eq s
  rw [h] at h1 h2
  refine ⟨?_, ?_, ?_⟩
  · rintro rfl; exact splitValues_ne s h
  · rw [h2]
    clear h h1 h2
    induction l with
    | nil => rfl
    | cons kv l ih =>
      cases l with
      | nil => simp [overridesText]
      | cons kv' l =>
        rw [overridesText, ← ih]
        · simp
        · simp
  · intro kv hkv hc
    exact h1 _ (List.mem_map.mpr ⟨kv, hkv, rfl⟩) (by simp [overrideText, hc])

/-- **C54.** The occurrences of `--special-tag` are accepted exactly if each is a list `name=tag,name=tag,..` of names of special tags, and
the overrides are those written, in order. Tags may contain `=` and may be empty. -/
theorem C54_special_tags (occurrences : List Str) (l : List (SpecialTag × Str)) :
    parseSpecialTags occurrences = some l ↔ ∃ groups, List.Forall₂ Overrides occurrences groups ∧ l = groups.flatten := by
  rw [parseSpecialTags, parseValues_some]
  induction occurrences generalizing l with
  | nil =>
    constructor
    · intro h
      refine ⟨[], .nil, ?_⟩
      simpa [eq_comm] using h
    · rintro ⟨groups, h, rfl⟩; cases h; rfl
  | cons s rest ih =>
    rw [List.flatMap_cons]
    constructor
    · intro h
      obtain ⟨l1, l2, rfl, h1, h2⟩ := List.map_eq_append_iff.mp h.symm
      obtain ⟨groups, h3, rfl⟩ := (ih l2).mp h2.symm
      exact ⟨l1 :: groups, .cons (overrides_of_split h1.symm) h3, by simp⟩
    · rintro ⟨groups, h, rfl⟩
      cases h with
      | cons h1 h2 =>
        rename_i g gs
        rw [(ih _).mpr ⟨gs, h2, rfl⟩]
        obtain ⟨h3, rfl, h4⟩ := h1
        rw [splitValues_overrides h3 h4]
        simp

example : parseSpecialTags ["underline=ins,strike=del".toList, "strike=".toList, "code=a=b".toList] =
    some [(.underline, "ins".toList), (.strike, "del".toList), (.strike, []), (.code, "a=b".toList)] ∧
    parseSpecialTags ["underline".toList] = none ∧ parseSpecialTags ["underline=ins,".toList] = none ∧
    parseSpecialTags ["code_block_container=pre".toList] = none := by decide +kernel

end Mty
