/-!
# Decimal numerals
-/

namespace Verif

/-- The character of a decimal digit. -/
def digitChar (d : Nat) : Char := Char.ofNat (48 + d)

/-- Decimal digits of `n`, with enough fuel. -/
def natChars : Nat → Nat → List Char
  | 0, _ => []
  | f + 1, n => if n < 10 then [digitChar n] else natChars f (n / 10) ++ [digitChar (n % 10)]

/-- Decimal digits of `n`; Python's `str(n)`. -/
def showNat (n : Nat) : List Char := natChars (n + 1) n

/-- Python's `str(i)` for an integer. -/
def showInt (i : Int) : List Char := if i < 0 then '-' :: showNat i.natAbs else showNat i.natAbs

/-- Value of a string of digits. -/
def readNat (cs : List Char) : Nat := cs.foldl (fun a c => a * 10 + (c.toNat - 48)) 0

theorem digitChar_toNat {d : Nat} (h : d < 10) : (digitChar d).toNat = 48 + d := by
  have : d = 0 ∨ d = 1 ∨ d = 2 ∨ d = 3 ∨ d = 4 ∨ d = 5 ∨ d = 6 ∨ d = 7 ∨ d = 8 ∨ d = 9 := by omega
  rcases this with rfl | rfl | rfl | rfl | rfl | rfl | rfl | rfl | rfl | rfl <;> rfl

theorem digitChar_isDigit {d : Nat} (h : d < 10) : (digitChar d).isDigit = true := by
  have : d = 0 ∨ d = 1 ∨ d = 2 ∨ d = 3 ∨ d = 4 ∨ d = 5 ∨ d = 6 ∨ d = 7 ∨ d = 8 ∨ d = 9 := by omega
  rcases this with rfl | rfl | rfl | rfl | rfl | rfl | rfl | rfl | rfl | rfl <;> rfl

theorem natChars_isDigit (f n : Nat) : ∀ c ∈ natChars f n, c.isDigit = true := by
  induction f generalizing n with
  | zero => simp [natChars]
  | succ f ih =>
    intro c hc
    simp only [natChars] at hc
    split at hc
    · simp only [List.mem_singleton] at hc
      subst hc; exact digitChar_isDigit (by assumption)
    · rw [List.mem_append, List.mem_singleton] at hc
      rcases hc with hc | rfl
      · exact ih _ c hc
      · exact digitChar_isDigit (Nat.mod_lt _ (by decide))

theorem showNat_isDigit (n : Nat) : ∀ c ∈ showNat n, c.isDigit = true := natChars_isDigit _ _

theorem showNat_ne_nil (n : Nat) : showNat n ≠ [] := by
  unfold showNat natChars
  split <;> simp

theorem readNat_append_singleton (cs : List Char) (c : Char) :
    readNat (cs ++ [c]) = readNat cs * 10 + (c.toNat - 48) := by
  simp [readNat, List.foldl_append]

theorem readNat_natChars (f n : Nat) (h : n < f) : readNat (natChars f n) = n := by
  induction f generalizing n with
  | zero => omega
  | succ f ih =>
    simp only [natChars]
    split
    · rename_i h10
      simp [readNat, digitChar_toNat h10]
    · rw [readNat_append_singleton, ih (n / 10) (by omega), digitChar_toNat (Nat.mod_lt _ (by decide))]
      omega

theorem readNat_showNat (n : Nat) : readNat (showNat n) = n := readNat_natChars _ _ (by omega)

theorem showNat_injective {m n : Nat} (h : showNat m = showNat n) : m = n := by
  rw [← readNat_showNat m, h, readNat_showNat]

theorem showInt_injective {i j : Int} (h : showInt i = showInt j) : i = j := by
  have hd : ∀ n : Nat, ∀ l, showNat n ≠ '-' :: l := by
    intro n l e
    have := showNat_isDigit n '-' (by rw [e]; simp)
    exact absurd this (by decide)
  unfold showInt at h
  split at h <;> split at h
  · simp only [List.cons.injEq, true_and] at h
    have := showNat_injective h
    omega
  · exact absurd h.symm (hd _ _)
  · exact absurd h (hd _ _)
  · have := showNat_injective h
    omega

end Verif
