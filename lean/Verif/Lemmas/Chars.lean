import Verif.Spec.Chars

namespace Scheme

theorem char_le_iff (a b : Char) : a ≤ b ↔ a.toNat ≤ b.toNat := by
  rw [Char.le_def, UInt32.le_iff_toNat_le]; rfl

theorem isWord_iff (u : Chars) (c : Char) : isWord u c = true ↔ WordChar u c := by
  have h1 : c = '_' ↔ c.toNat = 95 := ⟨fun h => by subst h; rfl, fun h => by
    apply Char.ext; apply UInt32.toNat_inj.1; exact h⟩
  simp only [WordChar, char_le_iff, isWord, isAscii, asciiAlpha, asciiUpper, asciiLower, asciiDigit]
  simp only [Char.reduceToNat]
  by_cases h : c.toNat < 128
  · simp [h, h1]; omega
  · have : 128 ≤ c.toNat := by omega
    cases hu : u.uword c <;> simp [h, h1, this, hu] <;> omega

theorem isSpace_iff (u : Chars) (c : Char) : isSpace u c = true ↔ BlankChar u c := by
  simp only [BlankChar, isSpace, isAscii, asciiSpace]
  by_cases h : c.toNat < 128
  · simp [h]; omega
  · have : 128 ≤ c.toNat := by omega
    cases hu : u.uspace c <;> simp [h, this, hu] <;> omega

theorem digitVal_iff (u : Chars) (c : Char) (d : Nat) : digitVal u c = some d ↔ DigitChar u c d := by
  simp only [DigitChar, digitVal, isAscii, asciiDigit, Char.reduceToNat]
  by_cases h : c.toNat < 128
  · simp only [h, decide_true, if_true]
    by_cases h2 : 48 ≤ c.toNat ∧ c.toNat ≤ 57
    · simp [h2]; omega
    · have h3 : (decide (48 ≤ c.toNat) && decide (c.toNat ≤ 57)) = false := by
        rw [Bool.eq_false_iff]; simpa using h2
      simp [h3]; omega
  · have h3 : ¬ (d < 10 ∧ c.toNat = 48 + d) := by omega
    have : 128 ≤ c.toNat := by omega
    simp [h, h3, this]

theorem DigitChar.of {u : Chars} {c : Char} {d : Nat} (h : digitVal u c = some d) : DigitChar u c d := (digitVal_iff u c d).1 h

end Scheme
