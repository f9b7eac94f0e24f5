import Verif.Model.Datasets
import Mathlib.Analysis.SpecialFunctions.Trigonometric.Bounds
import Mathlib.Algebra.BigOperators.Group.List.Lemmas
import Mathlib.Algebra.BigOperators.Ring.List
import Mathlib.Tactic.Linarith
import Mathlib.Tactic.FieldSimp
import Mathlib.Tactic.LinearCombination

/-!
C66: sizes, labels and geometry of the toy datasets. C67: spheres.
-/

namespace Torchdyn

open Real

/-! ### C66: moons -/

private theorem linspace0_length (d : ℝ) (n : Nat) : (linspace0 d n).length = n := by simp [linspace0]

private theorem linspace0_get (d : ℝ) (n i : Nat) (h : i < n) :
    (linspace0 d n)[i]? = some ((i : ℝ) * (d / ((n : ℝ) - 1))) := by
  simp [linspace0, h]

/-- Angles of `np.linspace(0, π, n)` lie in `[0, π]`. -/
private theorem angle_bounds (n i : Nat) (h : i < n) :
    0 ≤ (i : ℝ) * (π / ((n : ℝ) - 1)) ∧ (i : ℝ) * (π / ((n : ℝ) - 1)) ≤ π := by
  have hn : (1 : ℝ) ≤ n := by exact_mod_cast (by omega : 1 ≤ n)
  have hi : (i : ℝ) ≤ (n : ℝ) - 1 := by
    have : ((i + 1 : ℕ) : ℝ) ≤ n := by exact_mod_cast h
    push_cast at this; linarith
  have hpi := Real.pi_pos
  refine ⟨mul_nonneg (Nat.cast_nonneg i) (div_nonneg hpi.le (by linarith)), ?_⟩
  rcases (sub_nonneg.mpr hn).eq_or_lt with h0 | h0
  · rw [← h0]; simp [hpi.le]
  · rw [← mul_div_assoc, div_le_iff₀ h0]
    nlinarith

/-- The noiseless points of the moons, by index. -/
private theorem moons_points (n : Nat) (i : Nat) (hi : i < n) (u : Nat → ℝ) :
    (generateMoons n none u).1[i]? = some (if i < n / 2 then
      [cos ((i : ℝ) * (π / (((n / 2 : ℕ) : ℝ) - 1))), sin ((i : ℝ) * (π / (((n / 2 : ℕ) : ℝ) - 1)))]
      else [1 - cos (((i - n / 2 : ℕ) : ℝ) * (π / (((n - n / 2 : ℕ) : ℝ) - 1))),
        1 - sin (((i - n / 2 : ℕ) : ℝ) * (π / (((n - n / 2 : ℕ) : ℝ) - 1))) - 1 / 2]) := by
  simp only [generateMoons]
  rw [List.getElem?_zipWith]
  by_cases h : i < n / 2
  · rw [List.getElem?_append_left (by simpa [linspace0_length] using h),
      List.getElem?_append_left (by simpa [linspace0_length] using h)]
    simp only [List.getElem?_map, linspace0_get _ _ _ h, if_pos h, Option.map_some]
  · have h' : i - n / 2 < n - n / 2 := by omega
    rw [List.getElem?_append_right (by simpa [linspace0_length] using Nat.le_of_not_lt h),
      List.getElem?_append_right (by simpa [linspace0_length] using Nat.le_of_not_lt h)]
    simp only [List.getElem?_map, List.length_map, linspace0_length, linspace0_get _ _ _ h', if_neg h,
      Option.map_some]

/-- The shift of row `i`: nothing without noise, the same for both coordinates otherwise. -/
private theorem moons_noise (n : Nat) (s : ℝ) (u : Nat → ℝ) :
    (generateMoons n (some s) u).1 =
      (generateMoons n none u).1.mapIdx (fun i row => row.map (fun a => a + u i * s)) := rfl

/-- C66. `generate_moons(n)` has `n` points, `⌊n/2⌋` of them labelled `0` and `⌈n/2⌉` labelled `1`, for every noise. -/
theorem C66_moons_size (n : Nat) (noise : Option ℝ) (u : Nat → ℝ) :
    (generateMoons n noise u).1.length = n ∧ (generateMoons n noise u).2.length = n ∧
      (generateMoons n noise u).2.count 0 = n / 2 ∧ (generateMoons n noise u).2.count 1 = (n + 1) / 2 := by
  have hlen : (generateMoons n none u).1.length = n := by
    simp only [generateMoons, List.length_zipWith, List.length_append, List.length_map, linspace0_length]
    omega
  refine ⟨?_, ?_, ?_, ?_⟩
  · cases noise with
    | none => exact hlen
    | some s => rw [moons_noise, List.length_mapIdx, hlen]
  · simp only [generateMoons, List.length_append, List.length_replicate]; omega
  · simp [generateMoons, List.count_append, List.count_replicate]
  · simp only [generateMoons, List.count_append, List.count_replicate]
    simp
    omega

/-- C66. Every point of class `0` lies on the upper half of the unit circle and every point of class `1` on the lower half of
the unit circle around `(1, 1/2)`, up to the noise shift, which is `0` without noise and between `0` and `noise` otherwise
and is the same for both coordinates. -/
theorem C66_moons_geometry (n : Nat) (noise : Option ℝ) (u : Nat → ℝ) (hu : ∀ i, 0 ≤ u i ∧ u i < 1)
    (hnoise : ∀ s, noise = some s → 0 ≤ s) (i : Nat) (hi : i < n) :
    ∃ a b s : ℝ, (generateMoons n noise u).1[i]? = some [a + s, b + s] ∧ 0 ≤ s ∧ s ≤ noise.getD 0 ∧
      (((generateMoons n noise u).2[i]? = some 0 ∧ a ^ 2 + b ^ 2 = 1 ∧ 0 ≤ b) ∨
        ((generateMoons n noise u).2[i]? = some 1 ∧ (a - 1) ^ 2 + (b - 1 / 2) ^ 2 = 1 ∧ b ≤ 1 / 2)) := by
  have hX := moons_points n i hi u
  obtain ⟨s, hs0, hs1, hs⟩ : ∃ s : ℝ, 0 ≤ s ∧ s ≤ noise.getD 0 ∧ ∀ a b, (generateMoons n none u).1[i]? = some [a, b] →
      (generateMoons n noise u).1[i]? = some [a + s, b + s] := by
    cases noise with
    | none => exact ⟨0, le_rfl, le_rfl, fun a b h => by rw [h]; simp⟩
    | some q =>
      have hq := hnoise q rfl
      refine ⟨u i * q, mul_nonneg (hu i).1 hq, ?_, fun a b h => ?_⟩
      · simpa using mul_le_of_le_one_left hq (hu i).2.le
      · rw [moons_noise, List.getElem?_mapIdx, h]; simp
  have hy : (generateMoons n noise u).2[i]? = some (if i < n / 2 then 0 else 1) := by
    simp only [generateMoons]
    by_cases h : i < n / 2
    · rw [List.getElem?_append_left (by simpa using h), if_pos h]; simp [h]
    · rw [List.getElem?_append_right (by simpa using Nat.le_of_not_lt h), if_neg h]
      simp only [List.length_replicate, List.getElem?_replicate]
      rw [if_pos (by omega)]
  by_cases h : i < n / 2
  · rw [if_pos h] at hX hy
    obtain ⟨h0, h1⟩ := angle_bounds (n / 2) i h
    exact ⟨_, _, s, hs _ _ hX, hs0, hs1, Or.inl ⟨hy, cos_sq_add_sin_sq _, sin_nonneg_of_nonneg_of_le_pi h0 h1⟩⟩
  · rw [if_neg h] at hX hy
    have h' : i - n / 2 < n - n / 2 := by omega
    obtain ⟨h0, h1⟩ := angle_bounds (n - n / 2) (i - n / 2) h'
    refine ⟨_, _, s, hs _ _ hX, hs0, hs1, Or.inr ⟨hy, ?_, ?_⟩⟩
    · have := cos_sq_add_sin_sq (((i - n / 2 : ℕ) : ℝ) * (π / (((n - n / 2 : ℕ) : ℝ) - 1)))
      linear_combination this
    · have := sin_nonneg_of_nonneg_of_le_pi h0 h1
      linarith

/-- C66, both moons are covered from end to end: the first and last points of class `0` are `(1, 0)` and `(-1, 0)`, those of
class `1` are `(0, 1/2)` and `(2, 1/2)`. -/
theorem C66_moons_ends (n : Nat) (hn : 4 ≤ n) (u : Nat → ℝ) :
    (generateMoons n none u).1[0]? = some [1, 0] ∧ (generateMoons n none u).1[n / 2 - 1]? = some [-1, 0] ∧
      (generateMoons n none u).1[n / 2]? = some [0, 1 / 2] ∧ (generateMoons n none u).1[n - 1]? = some [2, 1 / 2] := by
  have ang : ∀ k : Nat, 2 ≤ k → ((k - 1 : ℕ) : ℝ) * (π / ((k : ℝ) - 1)) = π := by
    intro k hk
    have h2 : (2 : ℝ) ≤ k := by exact_mod_cast hk
    rw [Nat.cast_sub (by omega)]
    push_cast
    field_simp [show (k : ℝ) - 1 ≠ 0 by linarith]
  refine ⟨?_, ?_, ?_, ?_⟩
  · rw [moons_points n 0 (by omega), if_pos (by omega)]; simp
  · rw [moons_points n _ (by omega), if_pos (by omega), ang _ (by omega)]; simp
  · rw [moons_points n _ (by omega), if_neg (by omega)]; norm_num
  · rw [moons_points n _ (by omega), if_neg (by omega), show n - 1 - n / 2 = (n - n / 2) - 1 by omega, ang _ (by omega)]
    norm_num

/-- Non-vacuity: seven points with noise. -/
example : ∃ a b s : ℝ, (generateMoons 7 (some 0.1) (fun _ => 0.5)).1[3]? = some [a + s, b + s] ∧
    (a - 1) ^ 2 + (b - 1 / 2) ^ 2 = 1 := by
  obtain ⟨a, b, s, h, _, _, hc | hc⟩ := C66_moons_geometry 7 (some 0.1) (fun _ => 0.5) (by intro; norm_num)
    (by rintro s ⟨rfl⟩; norm_num) 3 (by norm_num)
  · exfalso; have := hc.1; simp [generateMoons, List.replicate] at this
  · exact ⟨a, b, s, h, hc.2.1⟩

/-! ### C66: spirals -/

/-- C66. `generate_spirals(n)` has `2 n` points, `n` of each class, and the second class is the first reflected through the
origin. -/
theorem C66_spirals_size (n : Nat) (noise : ℝ) (r u v : Nat → ℝ) :
    (generateSpirals n noise r u v).1.length = 2 * n ∧ (generateSpirals n noise r u v).2.length = 2 * n ∧
      (generateSpirals n noise r u v).2.count 0 = n ∧ (generateSpirals n noise r u v).2.count 1 = n ∧
      ∀ i, i < n → ∃ a b, (generateSpirals n noise r u v).1[i]? = some [a, b] ∧
        (generateSpirals n noise r u v).2[i]? = some 0 ∧
        (generateSpirals n noise r u v).1[n + i]? = some [-a, -b] ∧
        (generateSpirals n noise r u v).2[n + i]? = some 1 := by
  refine ⟨?_, ?_, ?_, ?_, fun i hi => ?_⟩
  · simp only [generateSpirals, List.length_append, List.length_map, List.length_range]; omega
  · simp only [generateSpirals, List.length_append, List.length_replicate]; omega
  · simp [generateSpirals, List.count_append, List.count_replicate]
  · simp [generateSpirals, List.count_append, List.count_replicate]
  · refine ⟨-Real.cos (Real.sqrt (r i) * 780 * (2 * π) / 360) * (Real.sqrt (r i) * 780 * (2 * π) / 360) + u i * noise,
      Real.sin (Real.sqrt (r i) * 780 * (2 * π) / 360) * (Real.sqrt (r i) * 780 * (2 * π) / 360) + v i * noise,
      ?_, ?_, ?_, ?_⟩
    · simp only [generateSpirals]
      rw [List.getElem?_append_left (by simpa using hi)]
      simp only [List.getElem?_map, List.getElem?_range hi, Option.map_some]
    · simp only [generateSpirals]
      rw [List.getElem?_append_left (by simpa using hi)]
      simp [hi]
    · simp only [generateSpirals]
      rw [List.getElem?_append_right (by simp)]
      simp only [List.length_map, List.length_range, Nat.add_sub_cancel_left, List.getElem?_map, List.getElem?_range hi,
        Option.map_some]
    · simp only [generateSpirals]
      rw [List.getElem?_append_right (by simp)]
      simp [hi]

/-- C66. Up to a noise of at most `noise` per coordinate, point `i` of the first class lies on an Archimedean spiral: there
is an angle in `[0, 13π/3]` such that its distance to the origin is that angle, in the direction of the angle (reflected in
the vertical axis). -/
theorem C66_spirals_geometry (n : Nat) (noise : ℝ) (r u v : Nat → ℝ) (hn : 0 ≤ noise) (hr : ∀ i, 0 ≤ r i ∧ r i < 1)
    (hu : ∀ i, 0 ≤ u i ∧ u i < 1) (hv : ∀ i, 0 ≤ v i ∧ v i < 1) (i : Nat) (hi : i < n) :
    ∃ θ a b e₁ e₂ : ℝ, (generateSpirals n noise r u v).1[i]? = some [a + e₁, b + e₂] ∧ 0 ≤ θ ∧ θ ≤ 13 * π / 3 ∧
      a = -(θ * cos θ) ∧ b = θ * sin θ ∧ a ^ 2 + b ^ 2 = θ ^ 2 ∧ |e₁| ≤ noise ∧ |e₂| ≤ noise := by
  have hpi := pi_pos
  have hs : Real.sqrt (r i) ≤ 1 := Real.sqrt_le_one.mpr (hr i).2.le
  have hs0 := Real.sqrt_nonneg (r i)
  refine ⟨Real.sqrt (r i) * 780 * (2 * π) / 360,
    -(Real.sqrt (r i) * 780 * (2 * π) / 360 * cos (Real.sqrt (r i) * 780 * (2 * π) / 360)),
    Real.sqrt (r i) * 780 * (2 * π) / 360 * sin (Real.sqrt (r i) * 780 * (2 * π) / 360), u i * noise, v i * noise, ?_, by positivity, ?_, rfl, rfl, ?_, ?_, ?_⟩
  · simp only [generateSpirals]
    rw [List.getElem?_append_left (by simpa using hi)]
    simp only [List.getElem?_map, List.getElem?_range hi, Option.map_some, Option.some.injEq, List.cons.injEq, and_true]
    constructor <;> ring
  · nlinarith
  · linear_combination (Real.sqrt (r i) * 780 * (2 * π) / 360) ^ 2 *
      cos_sq_add_sin_sq (Real.sqrt (r i) * 780 * (2 * π) / 360)
  · rw [abs_of_nonneg (mul_nonneg (hu i).1 hn)]; exact mul_le_of_le_one_left hn (hu i).2.le
  · rw [abs_of_nonneg (mul_nonneg (hv i).1 hn)]; exact mul_le_of_le_one_left hn (hv i).2.le

/-- Non-vacuity: three samples. -/
example : ((generateSpirals 3 0.1 (fun _ => 0.5) (fun _ => 0.5) (fun _ => 0.5)).1.length = 6) :=
  (C66_spirals_size 3 0.1 _ _ _).1

/-! ### C66: gaussians -/

/-- The rows the loop writes for class `i`. -/
private noncomputable def classRows (nSamples : Nat) (std : Nat → ℝ) (noise : ℝ) (z : Nat → Nat → List ℝ)
    (w : Nat → List ℝ) (loc : Nat → List ℝ) (i : Nat) : List (List ℝ) :=
  (List.range nSamples).map (fun j =>
    addRow (addRow (loc i) ((z i j).map (fun a => std i * a))) ((w i).map (fun a => a * noise)))

private theorem splice_append {α : Type} (A B C : List α) (rows : List α) (a : Nat) (ha : A.length = a)
    (h : B.length = rows.length) : spliceRows (A ++ (B ++ C)) a rows = A ++ (rows ++ C) := by
  subst ha
  rw [spliceRows, List.take_left', List.append_assoc, ← List.append_assoc A B C, List.drop_left']
  · simp [h]
  · rfl

private theorem gaussianLoop_eq (nSamples dim : Nat) (radius std : Nat → ℝ) (noise dAngle : ℝ) (z : Nat → Nat → List ℝ)
    (w : Nat → List ℝ) (loc : Nat → List ℝ) (hloc : ∀ i, gaussianLoc dim (radius i) ((i + 1 : ℕ) * dAngle) = .ok (loc i))
    (hdim : ∀ i, (loc i).length = dim) :
    ∀ (k i : Nat) (A B : List (List ℝ)) (A' B' : List Nat), A.length = i * nSamples → B.length = k * nSamples →
      A'.length = i * nSamples → B'.length = k * nSamples →
      gaussianLoop nSamples dim radius std noise dAngle z w k i (i * dAngle) (A ++ B, A' ++ B') =
        .ok (A ++ (List.range' i k).flatMap (classRows nSamples std noise z w loc),
          A' ++ (List.range' i k).flatMap (fun j => List.replicate nSamples j))
  | 0, i, A, B, A', B', _, hB, _, hB' => by
    have h1 : B = [] := List.eq_nil_of_length_eq_zero (by simpa using hB)
    have h2 : B' = [] := List.eq_nil_of_length_eq_zero (by simpa using hB')
    subst h1; subst h2
    simp [gaussianLoop, pure, Except.pure]
  | k + 1, i, A, B, A', B', hA, hB, hA', hB' => by
    obtain ⟨B₁, B₂, rfl, h1⟩ : ∃ B₁ B₂, B = B₁ ++ B₂ ∧ B₁.length = nSamples :=
      ⟨B.take nSamples, B.drop nSamples, (List.take_append_drop _ _).symm, by
        rw [List.length_take, hB, Nat.succ_mul]; omega⟩
    obtain ⟨C₁, C₂, rfl, h2⟩ : ∃ C₁ C₂, B' = C₁ ++ C₂ ∧ C₁.length = nSamples :=
      ⟨B'.take nSamples, B'.drop nSamples, (List.take_append_drop _ _).symm, by
        rw [List.length_take, hB', Nat.succ_mul]; omega⟩
    have hang : (i : ℝ) * dAngle + dAngle = ((i + 1 : ℕ) : ℝ) * dAngle := by push_cast; ring
    have hB2 : B₂.length = k * nSamples := by
      have := hB; rw [List.length_append, h1, Nat.succ_mul] at this; omega
    have hC2 : C₂.length = k * nSamples := by
      have := hB'; rw [List.length_append, h2, Nat.succ_mul] at this; omega
    have ih := gaussianLoop_eq nSamples dim radius std noise dAngle z w loc hloc hdim k (i + 1)
      (A ++ classRows nSamples std noise z w loc i) B₂ (A' ++ List.replicate nSamples i) C₂
      (by simp [classRows, hA, Nat.succ_mul]) hB2 (by simp [hA', Nat.succ_mul]) hC2
    simp only [gaussianLoop, hang, hloc, bind, Except.bind, hdim, ne_eq, not_true_eq_false, if_false]
    rw [splice_append A B₁ B₂ _ _ hA (by simp [h1]), splice_append A' C₁ C₂ _ _ hA' (by simp [h2])]
    rw [List.append_assoc, List.append_assoc] at ih
    simp only [classRows] at ih
    rw [ih]
    simp [List.range'_succ, classRows]

private theorem flatMap_get {α : Type} (n : Nat) (g : Nat → List α) (hg : ∀ i, (g i).length = n) :
    ∀ (k s i j : Nat), i < k → j < n → ((List.range' s k).flatMap g)[i * n + j]? = (g (s + i))[j]?
  | 0, _, _, _, h, _ => absurd h (Nat.not_lt_zero _)
  | k + 1, s, 0, j, _, hj => by
    rw [List.range'_succ, List.flatMap_cons, List.getElem?_append_left (by rw [hg]; omega)]
    simp
  | k + 1, s, i + 1, j, h, hj => by
    rw [List.range'_succ, List.flatMap_cons, List.getElem?_append_right (by rw [hg, Nat.succ_mul]; omega), hg,
      show (i + 1) * n + j - n = i * n + j by rw [Nat.succ_mul]; omega,
      flatMap_get n g hg k (s + 1) i j (by omega) hj, show s + 1 + i = s + (i + 1) by omega]

private theorem flatMap_length {α : Type} (n : Nat) (g : Nat → List α) (hg : ∀ i, (g i).length = n) (k s : Nat) :
    ((List.range' s k).flatMap g).length = k * n := by
  simp [List.length_flatMap, hg]

/-- Common part of both gaussian datasets in two dimensions: class `i` takes rows `i n, …, i n + n - 1`. -/
private theorem gaussianLoop_two (nSamples nGaussians : Nat) (radius std : Nat → ℝ) (noise dAngle : ℝ)
    (z : Nat → Nat → List ℝ) (w : Nat → List ℝ) :
    ∃ X y, gaussianLoop nSamples 2 radius std noise dAngle z w nGaussians 0 0
        (List.replicate (nSamples * nGaussians) (List.replicate 2 0), List.replicate (nSamples * nGaussians) 0)
        = .ok (X, y) ∧ X.length = nSamples * nGaussians ∧ y.length = nSamples * nGaussians ∧
      ∀ i j, i < nGaussians → j < nSamples → y[i * nSamples + j]? = some i ∧
        ∀ a b c d, z i j = [a, b] → w i = [c, d] → X[i * nSamples + j]? = some
          [radius i * cos ((i + 1 : ℕ) * dAngle) + std i * a + c * noise,
            radius i * sin ((i + 1 : ℕ) * dAngle) + std i * b + d * noise] := by
  have h := gaussianLoop_eq nSamples 2 radius std noise dAngle z w
    (fun i => [radius i * cos ((i + 1 : ℕ) * dAngle), radius i * sin ((i + 1 : ℕ) * dAngle)])
    (fun i => by simp [gaussianLoc, pure, Except.pure]) (fun i => rfl) nGaussians 0 []
    (List.replicate (nSamples * nGaussians) (List.replicate 2 0)) [] (List.replicate (nSamples * nGaussians) 0)
    (by simp) (by simp [Nat.mul_comm]) (by simp) (by simp [Nat.mul_comm])
  simp only [List.nil_append, Nat.cast_zero, zero_mul] at h
  refine ⟨_, _, h, ?_, ?_, fun i j hi hj => ⟨?_, fun a b c d hab hcd => ?_⟩⟩
  · rw [flatMap_length nSamples _ (by intro i; simp [classRows]), Nat.mul_comm]
  · rw [flatMap_length nSamples _ (by intro i; simp), Nat.mul_comm]
  · rw [flatMap_get nSamples _ (by intro i; simp) nGaussians 0 i j hi hj]; simp [hj]
  · rw [flatMap_get nSamples _ (by intro i; simp [classRows]) nGaussians 0 i j hi hj]
    simp [classRows, hj, hab, hcd, addRow]

/-- C66. In two dimensions `generate_gaussians` returns `n_samples` rows for each class, labelled by the class; row `j` of
class `i` is the class centre plus `std` times a normal draw plus the noise vector of the class; the centre lies on the
circle of the given radius, and consecutive centres are a rotation by `2π / n_gaussians` apart. -/
theorem C66_gaussians (nSamples nGaussians : Nat) (radius std noise : ℝ) (z : Nat → Nat → List ℝ) (w : Nat → List ℝ)
    :
    ∃ X y, generateGaussians nSamples nGaussians 2 radius std noise z w = .ok (X, y) ∧
      X.length = nSamples * nGaussians ∧ y.length = nSamples * nGaussians ∧
      ∃ cx cy : Nat → ℝ, (∀ i, cx i ^ 2 + cy i ^ 2 = radius ^ 2) ∧
        (∀ i, cx (i + 1) = cos (2 * π / nGaussians) * cx i - sin (2 * π / nGaussians) * cy i ∧
          cy (i + 1) = sin (2 * π / nGaussians) * cx i + cos (2 * π / nGaussians) * cy i) ∧
        (∀ i, i + 1 = nGaussians → cx i = radius ∧ cy i = 0) ∧
        ∀ i j, i < nGaussians → j < nSamples → y[i * nSamples + j]? = some i ∧
          ∀ a b c d, z i j = [a, b] → w i = [c, d] →
            X[i * nSamples + j]? = some [cx i + std * a + c * noise, cy i + std * b + d * noise] := by
  obtain ⟨X, y, h, hX, hy, hrow⟩ := gaussianLoop_two nSamples nGaussians (fun _ => radius) (fun _ => std) noise
    (2 * π / nGaussians) z w
  refine ⟨X, y, h, hX, hy, fun i => radius * cos ((i + 1 : ℕ) * (2 * π / nGaussians)),
    fun i => radius * sin ((i + 1 : ℕ) * (2 * π / nGaussians)), fun i => ?_, fun i => ⟨?_, ?_⟩, fun i hi => ?_, hrow⟩
  · linear_combination radius ^ 2 * cos_sq_add_sin_sq ((i + 1 : ℕ) * (2 * π / nGaussians))
  · beta_reduce
    rw [show ((i + 1 + 1 : ℕ) : ℝ) * (2 * π / nGaussians) = ((i + 1 : ℕ) : ℝ) * (2 * π / nGaussians) + 2 * π / nGaussians
      by push_cast; ring, cos_add]
    ring
  · beta_reduce
    rw [show ((i + 1 + 1 : ℕ) : ℝ) * (2 * π / nGaussians) = ((i + 1 : ℕ) : ℝ) * (2 * π / nGaussians) + 2 * π / nGaussians
      by push_cast; ring, sin_add]
    ring
  · have : ((i + 1 : ℕ) : ℝ) * (2 * π / nGaussians) = 2 * π := by
      rw [hi]
      have : (nGaussians : ℝ) ≠ 0 := by exact_mod_cast (by omega : nGaussians ≠ 0)
      field_simp
    simp only [this]
    simp

/-- C66. `generate_gaussians_spiral` in two dimensions: as `generate_gaussians`, with `n_gaussians_per_loop` classes a turn
and radii and deviations going linearly from the start to the end values. -/
theorem C66_gaussians_spiral (nSamples nGaussians perLoop : Nat) (hG : 2 ≤ nGaussians) (r₀ r₁ s₀ s₁ noise : ℝ)
    (z : Nat → Nat → List ℝ) (w : Nat → List ℝ) :
    ∃ X y, generateGaussiansSpiral nSamples nGaussians perLoop 2 r₀ r₁ s₀ s₁ noise z w = .ok (X, y) ∧
      X.length = nSamples * nGaussians ∧ y.length = nSamples * nGaussians ∧
      ∃ ρ σ : Nat → ℝ, ρ 0 = r₀ ∧ ρ (nGaussians - 1) = r₁ ∧ σ 0 = s₀ ∧ σ (nGaussians - 1) = s₁ ∧
        (∀ i, ρ (i + 2) - ρ (i + 1) = ρ (i + 1) - ρ i ∧ σ (i + 2) - σ (i + 1) = σ (i + 1) - σ i) ∧
        ∀ i j, i < nGaussians → j < nSamples → y[i * nSamples + j]? = some i ∧
          ∀ a b c d, z i j = [a, b] → w i = [c, d] → X[i * nSamples + j]? = some
            [ρ i * cos ((i + 1 : ℕ) * (2 * π / perLoop)) + σ i * a + c * noise,
              ρ i * sin ((i + 1 : ℕ) * (2 * π / perLoop)) + σ i * b + d * noise] := by
  obtain ⟨X, y, h, hX, hy, hrow⟩ := gaussianLoop_two nSamples nGaussians (linspaceAt r₀ r₁ nGaussians)
    (linspaceAt s₀ s₁ nGaussians) noise (2 * π / perLoop) z w
  have hlast : ∀ a b : ℝ, linspaceAt a b nGaussians (nGaussians - 1) = b := by
    intro a b
    have h2 : (2 : ℝ) ≤ nGaussians := by exact_mod_cast hG
    have h3 : (nGaussians : ℝ) - 1 ≠ 0 := by linarith
    rw [linspaceAt, Nat.cast_sub (by omega)]
    push_cast
    field_simp
    ring
  refine ⟨X, y, ?_, hX, hy, linspaceAt r₀ r₁ nGaussians, linspaceAt s₀ s₁ nGaussians, by simp [linspaceAt], hlast _ _,
    by simp [linspaceAt], hlast _ _, fun i => ⟨?_, ?_⟩, hrow⟩
  · simp only [generateGaussiansSpiral, if_neg (show nGaussians ≠ 0 by omega), bind, Except.bind]
    exact h
  · simp only [linspaceAt]; push_cast; ring
  · simp only [linspaceAt]; push_cast; ring

/-- Non-vacuity: seven classes of two samples. -/
example : ∃ X y, generateGaussians 2 7 2 0.5 0.1 0.001 (fun _ _ => [1, -1]) (fun _ => [0.5, 2]) = .ok (X, y) ∧
    X.length = 14 ∧ y[5]? = some 2 := by
  obtain ⟨X, y, h, hX, _, cx, cy, _, _, _, hr⟩ := C66_gaussians 2 7 0.5 0.1 0.001 (fun _ _ => [1, -1])
    (fun _ => [0.5, 2])
  exact ⟨X, y, h, hX, (hr 2 1 (by norm_num) (by norm_num)).1⟩

/-- C66 is false beyond the plane: in three dimensions the centres are not on the circle of the given radius (the radius is
missing in the second coordinate). One class of one sample, no deviation and no noise: the row of a class at a quarter turn,
`(0, 1, 0)` for radius `1/2`. -/
theorem C66_gaussians_three_refuted : ∃ X y, generateGaussians 1 4 3 (1 / 2) 0 0 (fun _ _ => [0, 0, 0])
    (fun _ => [0, 0, 0]) = .ok (X, y) ∧ X[0]? = some [0, 1, 0] := by
  have h := gaussianLoop_eq 1 3 (fun _ => 1 / 2) (fun _ => 0) 0 (2 * π / (4 : ℕ)) (fun _ _ => [0, 0, 0])
    (fun _ => [0, 0, 0]) (fun i => [1 / 2 * cos ((i + 1 : ℕ) * (2 * π / (4 : ℕ))), sin ((i + 1 : ℕ) * (2 * π / (4 : ℕ))), 1 / 2 * 0])
    (fun i => by simp [gaussianLoc, pure, Except.pure]) (fun i => rfl) 4 0 []
    (List.replicate (1 * 4) (List.replicate 3 0)) [] (List.replicate (1 * 4) 0)
    (by simp) (by simp) (by simp) (by simp)
  simp only [List.nil_append, Nat.cast_zero, zero_mul] at h
  refine ⟨_, _, h, ?_⟩
  have := flatMap_get 1 (classRows 1 (fun _ => 0) 0 (fun _ _ => [0, 0, 0]) (fun _ => [0, 0, 0])
    (fun i => [1 / 2 * cos ((i + 1 : ℕ) * (2 * π / (4 : ℕ))), sin ((i + 1 : ℕ) * (2 * π / (4 : ℕ))), 1 / 2 * 0]))
    (by intro i; simp [classRows]) 4 0 0 0 (by norm_num) (by norm_num)
  rw [Nat.zero_mul, Nat.zero_add] at this
  rw [this]
  have hq : (2 * π / 4 : ℝ) = π / 2 := by ring
  simp [classRows, addRow, hq]

/-- C66 is false beyond the plane: from four dimensions on, and in one, every call with at least one class raises. -/
theorem C66_gaussians_dim_refuted (nSamples nGaussians dim : Nat) (hG : 0 < nGaussians) (hdim : dim ≤ 1 ∨ 4 ≤ dim)
    (radius std noise : ℝ) (z : Nat → Nat → List ℝ) (w : Nat → List ℝ) :
    generateGaussians nSamples nGaussians dim radius std noise z w =
      .error (if dim ≤ 1 then .runtimeError else .valueError) := by
  obtain ⟨k, rfl⟩ : ∃ k, nGaussians = k + 1 := ⟨nGaussians - 1, by omega⟩
  rw [generateGaussians]
  simp only [gaussianLoop]
  rcases hdim with h | h
  · have h2 : ¬ 2 < dim := by omega
    have h3 : ([radius * cos (0 + 2 * π / (k + 1 : ℕ)), radius * sin (0 + 2 * π / (k + 1 : ℕ))] : List ℝ).length ≠ dim := by
      simp; omega
    simp only [gaussianLoc, if_neg h2, bind, Except.bind, pure, Except.pure, if_pos h, if_pos h3, throw, throwThe,
      MonadExceptOf.throw]
  · simp only [gaussianLoc, if_pos (show 2 < dim by omega), if_neg (show dim ≠ 3 by omega), bind, Except.bind,
      if_neg (show ¬ dim ≤ 1 by omega), throw, throwThe, MonadExceptOf.throw]

/-! ### C67 -/

private noncomputable def sqSum (v : List ℝ) : ℝ := (v.map (fun a => a ^ 2)).sum

/-- C67. `randnsphere` returns a point at distance `|radius|` from the origin, in every dimension and for every nonzero
draw. -/
theorem C67_sphere (v : List ℝ) (radius : ℝ) (hv : ∃ a ∈ v, a ≠ 0) :
    (randnsphere v radius).length = v.length ∧ Real.sqrt (((randnsphere v radius).map (fun a => a ^ 2)).sum) = |radius| := by
  have hpos : 0 < (v.map (fun a => a ^ 2)).sum := by
    obtain ⟨a, ha, hne⟩ := hv
    have hnn : ∀ x ∈ v.map (fun a => a ^ 2), (0 : ℝ) ≤ x := by
      intro x hx; obtain ⟨b, _, rfl⟩ := List.mem_map.mp hx; positivity
    exact lt_of_lt_of_le (by positivity : 0 < a ^ 2) (List.single_le_sum hnn _ (List.mem_map.mpr ⟨a, ha, rfl⟩))
  refine ⟨by simp [randnsphere], ?_⟩
  have h : ((randnsphere v radius).map (fun a => a ^ 2)).sum =
      (radius / Real.sqrt ((v.map (fun a => a ^ 2)).sum)) ^ 2 * (v.map (fun a => a ^ 2)).sum := by
    simp only [randnsphere, List.map_map]
    rw [← List.sum_map_mul_left]
    congr 1
    refine List.map_congr_left fun a _ => ?_
    simp only [Function.comp]
    ring
  rw [h, div_pow, Real.sq_sqrt hpos.le, div_mul_cancel₀ _ hpos.ne', Real.sqrt_sq_eq_abs]

/-- Non-vacuity. -/
example : Real.sqrt (((randnsphere [3, 0, -4] 0.5).map (fun a => a ^ 2)).sum) = |(0.5 : ℝ)| :=
  (C67_sphere [3, 0, -4] 0.5 ⟨3, by simp, by norm_num⟩).2

/-- C67, the part that holds: for every even positive `n_samples`, half of the rows are points of the inner sphere plus
noise, labelled `1`, and half points of the outer one plus noise, labelled `0`. Missing: odd `n_samples`. -/
theorem C67_even_partial (h : Nat) (hh : 0 < h) (r₁ r₂ : ℝ) (inner outer noiseIn noiseOut : Nat → List ℝ)
    (hin : ∀ i, ∃ a ∈ inner i, a ≠ 0) (hout : ∀ i, ∃ a ∈ outer i, a ≠ 0) :
    ∃ X y, generateConcentricSpheres (2 * h) r₁ r₂ inner outer noiseIn noiseOut = .ok (X, y) ∧ X.length = 2 * h ∧
      y.length = 2 * h ∧ ∀ i, i < h →
        y[i]? = some 1 ∧ y[h + i]? = some 0 ∧
        (∃ p, X[i]? = some (addRow p (noiseIn i)) ∧ Real.sqrt ((p.map (fun a => a ^ 2)).sum) = |r₁|) ∧
        (∃ p, X[h + i]? = some (addRow p (noiseOut i)) ∧ Real.sqrt ((p.map (fun a => a ^ 2)).sum) = |r₂|) := by
  have hd : 2 * h / 2 = h := by omega
  have hs : 2 * h - h = h := by omega
  have hc : ∀ g : Nat → List ℝ, catRows ((List.range h).map g) = .ok ((List.range h).map g) := by
    intro g
    rw [catRows, if_neg (by simp; omega)]; rfl
  have hb : ∀ g : Nat → List ℝ, broadcastRows h ((List.range h).map g) = .ok ((List.range h).map g) := by
    intro g
    unfold broadcastRows; rw [if_pos (by simp)]; rfl
  refine ⟨List.zipWith addRow ((List.range h).map (fun i => randnsphere (inner i) r₁)) ((List.range h).map noiseIn) ++
      List.zipWith addRow ((List.range h).map (fun i => randnsphere (outer i) r₂)) ((List.range h).map noiseOut),
    List.replicate h 1 ++ List.replicate h 0, ?_, ?_⟩
  · simp only [generateConcentricSpheres, hd, hs, hc, hb, bind, Except.bind, pure, Except.pure]
  · refine ⟨by simp; omega, by simp; omega, fun i hi => ⟨?_, ?_, ⟨randnsphere (inner i) r₁, ?_, (C67_sphere _ _ (hin i)).2⟩,
      ⟨randnsphere (outer i) r₂, ?_, (C67_sphere _ _ (hout i)).2⟩⟩⟩
    · rw [List.getElem?_append_left (by simpa using hi)]; simp [hi]
    · rw [List.getElem?_append_right (by simp)]; simp [hi]
    · rw [List.getElem?_append_left (by simpa using hi)]; simp [hi]
    · rw [List.getElem?_append_right (by simp)]; simp [hi]

/-- Non-vacuity: four points of the plane. -/
example : ∃ X y, generateConcentricSpheres 4 0.5 1 (fun _ => [1, 2]) (fun _ => [2, 1]) (fun _ => [0, 0.1])
    (fun _ => [0.1, 0]) = .ok (X, y) ∧ X.length = 4 := by
  obtain ⟨X, y, h, hX, _⟩ := C67_even_partial 2 (by norm_num) 0.5 1 (fun _ => [1, 2]) (fun _ => [2, 1]) (fun _ => [0, 0.1])
    (fun _ => [0.1, 0]) (fun _ => ⟨1, by simp, by norm_num⟩) (fun _ => ⟨1, by simp, by norm_num⟩)
  exact ⟨X, y, h, hX⟩

/-- C67 is false of the code: every odd `n_samples` other than three, and zero, raise a `RuntimeError`, whatever the draws. -/
theorem C67_odd_refuted (n : Nat) (hn : n = 0 ∨ (n % 2 = 1 ∧ n ≠ 3)) (r₁ r₂ : ℝ)
    (inner outer noiseIn noiseOut : Nat → List ℝ) :
    generateConcentricSpheres n r₁ r₂ inner outer noiseIn noiseOut = .error .runtimeError := by
  by_cases h0 : n / 2 = 0
  · simp [generateConcentricSpheres, h0, catRows, bind, Except.bind, throw, throwThe, MonadExceptOf.throw]
  · have hc : ∀ g : Nat → List ℝ, catRows ((List.range (n / 2)).map g) = .ok ((List.range (n / 2)).map g) := by
      intro g
      rw [catRows, if_neg (by simp; omega)]; rfl
    have hb : ∀ g : Nat → List ℝ, broadcastRows (n / 2) ((List.range (n / 2)).map g) = .ok ((List.range (n / 2)).map g) := by
      intro g
      unfold broadcastRows; rw [if_pos (by simp)]; rfl
    have hb' : ∀ g : Nat → List ℝ, broadcastRows (n - n / 2) ((List.range (n / 2)).map g) = .error .runtimeError := by
      intro g
      unfold broadcastRows; rw [if_neg (by simp; omega)]
      split
      · rename_i r hr
        have := congrArg List.length hr
        simp at this
        omega
      · rfl
    simp only [generateConcentricSpheres, hc, hb, hb', bind, Except.bind]

/-- C67, the odd case that does not raise: with three samples the two outer points coincide. -/
theorem C67_three_refuted (r₁ r₂ : ℝ) (inner outer noiseIn noiseOut : Nat → List ℝ) :
    ∃ p q y, generateConcentricSpheres 3 r₁ r₂ inner outer noiseIn noiseOut = .ok ([p, q, q], y) :=
  ⟨_, _, _, rfl⟩

end Torchdyn
