import Mathlib.Data.Int.Log
import Mathlib.Data.Rat.Floor
import Mathlib.Tactic.Linarith
import Mathlib.Tactic.FieldSimp
import Mathlib.Tactic.Ring
import Mathlib.Tactic.Positivity
import Mathlib.Algebra.Order.Field.Basic

/-!
Binary floating-point numbers, for the time arithmetic of /repo/torchdyn/numerics/odeint.py: `t`, `dt` and the entries of
`t_span` are tensors of a floating-point type, so that each `+` and `-` on times (lines 352-361, 379, 389-394, 400 of
`_adaptive_odeint`, 420, 429, 433 of `_fixed_odeint`) is rounded to nearest, ties to even. Simplification: the exponent
range is unbounded (no overflow, no subnormal numbers); infinities, NaN and signed zeros are left out. `float32` has 24 bits,
`float64` has 53.
-/

namespace Torchdyn

/-- The nearest integer, ties to even. -/
def roundEven (x : ℚ) : ℤ :=
  let f := ⌊x⌋
  if x - f < 1 / 2 then f
  else if 1 / 2 < x - f then f + 1
  else if f % 2 = 0 then f else f + 1

/-- The spacing of the numbers with `p` bits near `x`. -/
def ulp (p : ℕ) (x : ℚ) : ℚ := 2 ^ (Int.log 2 |x| - p + 1)

/-- Rounding to `p` bits. -/
def roundTo (p : ℕ) (x : ℚ) : ℚ := roundEven (x / ulp p x) * ulp p x

/-- The numbers with `p` bits. -/
def IsBinary (p : ℕ) (x : ℚ) : Prop := ∃ m e : ℤ, |m| ≤ 2 ^ p ∧ x = m * 2 ^ e

theorem roundEven_error (x : ℚ) : |(roundEven x : ℚ) - x| ≤ 1 / 2 := by
  have h1 := Int.floor_le x
  have h2 := Int.lt_floor_add_one x
  unfold roundEven
  simp only
  split_ifs with a b c
  · rw [abs_le]; constructor <;> linarith
  · rw [abs_le]; push_cast; constructor <;> linarith
  · rw [abs_le]; constructor <;> linarith
  · rw [abs_le]; push_cast; constructor <;> linarith

theorem ulp_pos (p : ℕ) (x : ℚ) : 0 < ulp p x := by exact zpow_pos (by norm_num) _

theorem pow_log_le {x : ℚ} (hx : x ≠ 0) : (2 : ℚ) ^ Int.log 2 |x| ≤ |x| := by
  have := Int.zpow_log_le_self (b := 2) (r := |x|) (by norm_num) (abs_pos.2 hx)
  exact_mod_cast this

theorem lt_pow_log (x : ℚ) : |x| < (2 : ℚ) ^ (Int.log 2 |x| + 1) := by
  have := Int.lt_zpow_succ_log_self (b := 2) (by norm_num) |x|
  exact_mod_cast this

theorem roundTo_isBinary (p : ℕ) (x : ℚ) : IsBinary p (roundTo p x) := by
  refine ⟨roundEven (x / ulp p x), Int.log 2 |x| - p + 1, ?_, rfl⟩
  have h1 := roundEven_error (x / ulp p x)
  have h2 : |x / ulp p x| < 2 ^ p := by
    rw [abs_div, abs_of_pos (ulp_pos p x), div_lt_iff₀ (ulp_pos p x)]
    refine (lt_pow_log x).trans_le (le_of_eq ?_)
    unfold ulp
    rw [← zpow_natCast, ← zpow_add₀ (by norm_num)]
    congr 1
    ring
  have h3 : |(roundEven (x / ulp p x) : ℚ)| < 2 ^ p + 1 := by
    have := abs_sub_abs_le_abs_sub (roundEven (x / ulp p x) : ℚ) (x / ulp p x)
    linarith
  have h4 : |roundEven (x / ulp p x)| < 2 ^ p + 1 := by exact_mod_cast h3
  omega

/-- A floating-point number with `p` bits. -/
structure Binary (p : ℕ) where
  val : ℚ
  isBinary : IsBinary p val

namespace Binary

variable {p : ℕ}

theorem ext' {a b : Binary p} (h : a.val = b.val) : a = b := by
  cases a; cases b; cases h; rfl

/-- The rounded sum. -/
instance : Add (Binary p) := ⟨fun a b => ⟨roundTo p (a.val + b.val), roundTo_isBinary _ _⟩⟩
/-- The rounded difference. -/
instance : Sub (Binary p) := ⟨fun a b => ⟨roundTo p (a.val - b.val), roundTo_isBinary _ _⟩⟩
instance : One (Binary p) := ⟨⟨1, 1, 0, by rw [abs_one]; exact one_le_pow₀ (by norm_num), by simp⟩⟩
instance : Zero (Binary p) := ⟨⟨0, 0, 0, by simp, by simp⟩⟩
instance : LinearOrder (Binary p) := LinearOrder.lift' val (fun _ _ => ext')

theorem add_val (a b : Binary p) : (a + b).val = roundTo p (a.val + b.val) := rfl
theorem sub_val (a b : Binary p) : (a - b).val = roundTo p (a.val - b.val) := rfl
theorem le_iff {a b : Binary p} : a ≤ b ↔ a.val ≤ b.val := Iff.rfl
theorem lt_iff {a b : Binary p} : a < b ↔ a.val < b.val := Iff.rfl

end Binary

end Torchdyn
