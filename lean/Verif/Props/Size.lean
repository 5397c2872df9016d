import Verif.Proofs.SizeSource
import Verif.Proofs.Parse
import Verif.Props.PartsErrors

/-!
# C82: the output is not much larger than the source

The size of a text is its number of bytes, `byteLen`.
-/

set_option autoImplicit false

namespace Mty

namespace Size

theorem bytes_le : ∀ s : Str, byteLen s ≤ 4 * s.length
  | [] => Nat.le_refl _
  | c :: s => by
    have := bytes_le s
    have := c.utf8Size_le_four
    simp only [byteLen, List.length_cons]
    omega

/-- What is written, also for a wrong source. -/
theorem written_le (alnum : Char → Bool) (cfg : OutputConfig) (hm : cfg.metadata = none) : ∃ K, ∀ (parse : Parser) (src : Str) (forgive : Bool),
    (∀ ast, parse src = .ok ast → Grammar.Conforms alnum src ast = true) →
    byteLen (convertToInternal parse src cfg forgive).1 ≤ K * (byteLen src + 1) * (1 + (byteLen src + 1) * width cfg) := by
  obtain ⟨K, hK⟩ := transformed_le cfg hm
  refine ⟨4 * (K * 50 + 20) * (1 + K * 50), fun parse src forgive hg => ?_⟩
  rw [convertToInternal]
  generalize he : Build.parseDocument parse src (Errors.new cfg) = x
  obtain ⟨d, e⟩ := x
  cases d with
  | none => exact Nat.zero_le _
  | some doc =>
    dsimp only
    have h1 : nodesW src doc.nodes ≤ 50 * byteLen src + 26 := by
      unfold Build.parseDocument at he
      cases ha : parse src with
      | ok ast => rw [ha] at he; exact built_doc (hg ast ha) _ _ _ he
      | error p => rw [ha] at he; exact absurd he (by simp [bind, BM.bind, BM.fail, BM.syntaxErr]; split <;> simp)
    have h2 := hK src doc
    generalize transformDocument doc src cfg = doc' at h2 ⊢
    have h3 := output_le (src := src) (doc := doc') (cfg := cfg)
    generalize hn : byteLen src = n at h1 ⊢
    have h4 : nodesW src doc'.nodes ≤ K * 50 * (n + 1) := by
      refine Nat.le_trans h2 ?_
      rw [Nat.mul_assoc]
      exact Nat.mul_le_mul_left _ (by omega)
    have h5 : (outputHtmlTo src doc' cfg).1.length ≤ (K * 50 + 20) * (n + 1) * ((1 + K * 50) * (1 + (n + 1) * width cfg)) := by
      refine Nat.le_trans h3 (Nat.mul_le_mul ?_ ?_)
      · rw [Nat.add_mul]
        omega
      · have := Nat.mul_le_mul_right (width cfg) h4
        have e : (1 + K * 50) * (1 + (n + 1) * width cfg) = 1 + K * 50 * (n + 1) * width cfg + (K * 50 + (n + 1) * width cfg) := by ring
        omega
    have h6 := bytes_le (outputHtmlTo src doc' cfg).1
    have h7 : byteLen (outputHtmlTo src doc' cfg).1 ≤ 4 * (K * 50 + 20) * (1 + K * 50) * (n + 1) * (1 + (n + 1) * width cfg) := by
      have e : 4 * (K * 50 + 20) * (1 + K * 50) * (n + 1) * (1 + (n + 1) * width cfg) =
        4 * ((K * 50 + 20) * (n + 1) * ((1 + K * 50) * (1 + (n + 1) * width cfg))) := by ring
      omega
    split
    · split
      · exact h7
      · exact h7
    · exact Nat.zero_le _

end Size

/-- **C82.** Without indentation the output is at most so many times as large as the source, and the factor depends on the configuration
alone: not on the source, and not on which tree of the grammar the parser finds. This holds for what is written for a wrong source too. -/
theorem C82_linear (alnum : Char → Bool) (cfg : OutputConfig) (hi : cfg.indent = none) (hm : cfg.metadata = none) :
    ∃ K, ∀ (parse : Parser) (src buf : Str), (∀ ast, parse src = .ok ast → Grammar.Conforms alnum src ast = true) →
      byteLen (convertTo parse src cfg buf).1 ≤ byteLen buf + K * (byteLen src + 1) ∧
      ∀ html, convert parse src cfg = .ok html → byteLen html ≤ K * (byteLen src + 1) := by
  obtain ⟨K, hK⟩ := Size.written_le alnum cfg hm
  have hw : Size.width cfg = 0 := by rw [Size.width, hi]; rfl
  refine ⟨K, fun parse src buf hg => ⟨?_, fun html hc => ?_⟩⟩
  · have := hK parse src true hg
    rw [hw, Nat.mul_zero, Nat.add_zero, Nat.mul_one] at this
    rw [convertTo]
    simp only [byteLen_append]
    omega
  · have := hK parse src false hg
    rw [hw, Nat.mul_zero, Nat.add_zero, Nat.mul_one] at this
    rw [convert] at hc
    dsimp only at hc
    split at hc
    · cases hc; exact this
    · cases hc

/-- The parser of the model finds only trees of the grammar, so both bounds hold for it. -/
theorem Size.reference (src : Str) : ∀ ast, RepoTests.parser src = .ok ast → Grammar.Conforms Char.isAlphanum src ast = true := by
  intro ast h
  rw [RepoTests.parser] at h
  split at h
  · rename_i d hd
    cases h
    exact Grammar.parse_conforms hd
  · cases h

example : ∃ K, ∀ src html, convert RepoTests.parser src {} = .ok html → byteLen html ≤ K * (byteLen src + 1) := by
  obtain ⟨K, h⟩ := C82_linear Char.isAlphanum {} rfl rfl
  exact ⟨K, fun src html => (h RepoTests.parser src [] (Size.reference src)).2 html⟩

set_option maxRecDepth 20000 in
example : (convertTo RepoTests.parser "> > > {\n\na > b\n\n\"\n}".toList {} []).1.length = 43 := by decide +kernel

/-- **C82.** With indentation the output is at most as large as the square of the size of the source, times a factor that depends on the
configuration alone. -/
theorem C82_indented (alnum : Char → Bool) (cfg : OutputConfig) (hm : cfg.metadata = none) :
    ∃ K, ∀ (parse : Parser) (src buf : Str), (∀ ast, parse src = .ok ast → Grammar.Conforms alnum src ast = true) →
      byteLen (convertTo parse src cfg buf).1 ≤ byteLen buf + K * (byteLen src + 1) ^ 2 ∧
      ∀ html, convert parse src cfg = .ok html → byteLen html ≤ K * (byteLen src + 1) ^ 2 := by
  obtain ⟨K, hK⟩ := Size.written_le alnum cfg hm
  have key : ∀ n, K * (n + 1) * (1 + (n + 1) * Size.width cfg) ≤ K * (1 + Size.width cfg) * (n + 1) ^ 2 := by
    intro n
    have h1 : 1 + (n + 1) * Size.width cfg ≤ (1 + Size.width cfg) * (n + 1) := by
      have e : (1 + Size.width cfg) * (n + 1) = 1 + (n + 1) * Size.width cfg + n := by ring
      omega
    refine Nat.le_trans (Nat.mul_le_mul_left _ h1) (Nat.le_of_eq ?_)
    ring
  refine ⟨K * (1 + Size.width cfg), fun parse src buf hg => ⟨?_, fun html hc => ?_⟩⟩
  · have := hK parse src true hg
    have := key (byteLen src)
    rw [convertTo]
    simp only [byteLen_append]
    omega
  · have := hK parse src false hg
    have := key (byteLen src)
    rw [convert] at hc
    dsimp only at hc
    split at hc
    · cases hc; omega
    · cases hc

example : ∃ K, ∀ src html, convert RepoTests.parser src { indent := some "  ".toList, completePage := some true } = .ok html →
    byteLen html ≤ K * (byteLen src + 1) ^ 2 := by
  obtain ⟨K, h⟩ := C82_indented Char.isAlphanum { indent := some "  ".toList, completePage := some true } rfl
  exact ⟨K, fun src html => (h RepoTests.parser src [] (Size.reference src)).2 html⟩

set_option maxRecDepth 20000 in
example : (convertTo RepoTests.parser "{{{{{{".toList { indent := some "    ".toList } []).1.length = 202 := by decide +kernel

end Mty
