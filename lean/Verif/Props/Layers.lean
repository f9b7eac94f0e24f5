import Verif.Model.Layers
import Mathlib.RingTheory.Polynomial.Chebyshev

/-!
Layers: C63 (concatenating layers), C64 (Galerkin layers evaluate the expansion), C65 (Chebyshev basis), C78 (degrees of
the expansions), C79 (options of Galerkin layers).
-/

set_option linter.unusedSimpArgs false
set_option linter.unusedSectionVars false

namespace Torchdyn

/-! ### C63 -/

section nodeLayers

variable {C : Type}

/-- **C63** for `Augmenter` without function: the input is kept, in order and contiguous, and exactly `augment_dims` zero
slices are added, all on the side given by `order`. -/
theorem C63_augmenter_zeros [Zero C] (a : Augmenter C) (h : a.augmentFunc = none) (x : List C) :
    ∃ pre post, a.forward x = pre ++ x ++ post ∧ pre.length + post.length = a.augmentDims ∧
      (∀ c ∈ pre ++ post, c = 0) ∧ (a.order = "first" → post = []) ∧ (a.order ≠ "first" → pre = []) := by
  unfold Augmenter.forward
  rw [h]
  by_cases ho : a.order = "first"
  · refine ⟨List.replicate a.augmentDims 0, [], ?_, ?_, ?_, fun _ => rfl, fun h => absurd ho h⟩
    · simp [ho]
    · simp
    · simp only [List.append_nil]
      exact fun c hc => List.eq_of_mem_replicate hc
  · refine ⟨[], List.replicate a.augmentDims 0, ?_, ?_, ?_, fun h => absurd h ho, fun _ => rfl⟩
    · simp [ho]
    · simp
    · simp only [List.nil_append]
      exact fun c hc => List.eq_of_mem_replicate hc

/-- **C63** for `Augmenter` with a function: the input is kept and the slices of `augment_func(x)` are added. -/
theorem C63_augmenter_func [Zero C] (a : Augmenter C) (g : List C → List C) (h : a.augmentFunc = some g) (x : List C) :
    ∃ pre post, a.forward x = pre ++ x ++ post ∧ pre ++ post = g x ∧
      (a.order = "first" → post = []) ∧ (a.order ≠ "first" → pre = []) := by
  unfold Augmenter.forward
  rw [h]
  by_cases ho : a.order = "first"
  · exact ⟨g x, [], by simp [ho], by simp, fun _ => rfl, fun h => absurd ho h⟩
  · exact ⟨[], g x, by simp [ho], by simp, fun h => absurd h ho, fun _ => rfl⟩

/-- **C63** for `DepthCat`: the input followed by one slice filled with the time; an error exactly when no time has been
set. -/
theorem C63_depth_cat {K : Type} (fill : K → C) (t : Option K) (x : List C) :
    (∀ s, t = some s → depthCatForward fill t x = .ok (x ++ [fill s])) ∧
    (t = none → depthCatForward fill t x = .error .typeError) := by
  constructor
  · rintro s rfl
    rfl
  · rintro rfl
    rfl

/-- **C63** for `DataControl`: the input followed by the control; an error exactly when no control has been set. -/
theorem C63_data_control (u : Option (List C)) (x : List C) :
    (∀ v, u = some v → dataControlForward u x = .ok (x ++ v)) ∧
    (u = none → dataControlForward u x = .error .typeError) := by
  constructor
  · rintro v rfl
    rfl
  · rintro rfl
    rfl

example : (Augmenter.mk (C := ℚ) 3 none "last").forward [5, 6] = [5, 6, 0, 0, 0] := by decide +kernel

end nodeLayers

/-! ### C64 -/

section galWeights

variable {K : Type} [CommRing K]

theorem diagBlock_ofFn {deg : Nat} (v : Fin deg → K) :
    diagBlock deg (List.ofFn v) = .ok (Matrix.of fun r c => if r = c then v c else 0) := by
  unfold diagBlock
  rw [dif_pos (List.length_ofFn)]
  simp only [pure, Except.pure]
  congr 2
  funext r c
  by_cases h : r = c
  · simp [h]
  · simp [h]

theorem diagBlocks_ofFn {deg n : Nat} (φ : Fin n → Fin deg → K) : ∀ (k : Nat) (hk : k ≤ n),
    diagBlocks deg (List.ofFn (fun i => List.ofFn (φ i))) k =
      .ok (fun i : Fin k => Matrix.of fun r c => if r = c then φ ⟨i.val, by omega⟩ c else 0) := by
  intro k
  induction k with
  | zero =>
    intro _
    simp only [diagBlocks, pure, Except.pure]
    congr 1
    funext i
    exact i.elim0
  | succ k ih =>
    intro hk
    have hget : (List.ofFn (fun i => List.ofFn (φ i)))[k]? = some (List.ofFn (φ ⟨k, by omega⟩)) := by
      rw [List.getElem?_ofFn, dif_pos (by omega)]
    simp only [diagBlocks, ih (by omega), bind, Except.bind, getItem, hget, pure, Except.pure, diagBlock_ofFn]
    congr 1
    funext i
    refine Fin.lastCases ?_ (fun j => ?_) i
    · simp
    · simp

theorem galWeights_ofFn {P deg n : Nat} (φ : Fin n → Fin deg → K) (coeffs : Fin P → Fin deg → Fin n → K) :
    galWeights deg n (List.ofFn (fun i => List.ofFn (φ i))) coeffs = .ok (fun p => ∑ i, ∑ d, φ i d * coeffs p d i) := by
  unfold galWeights
  simp only [bind, Except.bind, diagBlocks_ofFn φ _ le_rfl, pure, Except.pure]
  congr 1
  funext p
  simp only [Matrix.mul_apply, Matrix.of_apply, Fintype.sum_prod_type, ite_mul, zero_mul]
  rw [Finset.sum_comm]
  refine Finset.sum_congr rfl (fun i _ => ?_)
  refine Finset.sum_congr rfl (fun r _ => ?_)
  simp

end galWeights

section galerkin

variable {K : Type} [Field K]

/-- **C64.** When the expansion yields `φ i d` for eigenfunction `i` and degree `d` at the depth `t`, weight `p` is
`Σ_i Σ_d φ i d * coeffs[p, d, i]`. -/
theorem C64_weights {P : Nat} (l : GalLayer K P) (t : K) (φ : Fin l.expfunc.nEig → Fin l.expfunc.deg → K)
    (hφ : l.expfunc.forward (linspace0 (l.expfunc.deg : K) l.expfunc.deg) (t * l.dilation + l.shift) =
      .ok (List.ofFn (fun i => List.ofFn (φ i)))) :
    l.calculateWeights t = .ok (fun p => ∑ i, ∑ d, φ i d * l.coeffs p d i) := by
  unfold GalLayer.calculateWeights
  simp only [hφ, bind, Except.bind, galWeights_ofFn]

theorem diagBlocks_const {deg n : Nat} (v : Fin n → K) : ∀ (k : Nat) (hk : k ≤ n),
    diagBlocks deg (List.ofFn (fun i => [v i])) k =
      .ok (fun i : Fin k => Matrix.of fun r c : Fin deg => if r = c then v ⟨i.val, by omega⟩ else 0) := by
  have hd : ∀ x : K, diagBlock deg [x] = .ok (Matrix.of fun r c => if r = c then x else 0) := by
    intro x
    unfold diagBlock
    by_cases h : [x].length = deg
    · rw [dif_pos h]
      simp [pure, Except.pure]
    · rw [dif_neg h]
      rfl
  intro k
  induction k with
  | zero =>
    intro _
    simp only [diagBlocks, pure, Except.pure]
    congr 1
    funext i
    exact i.elim0
  | succ k ih =>
    intro hk
    have hget : (List.ofFn (fun i => [v i]))[k]? = some [v ⟨k, by omega⟩] := by
      rw [List.getElem?_ofFn, dif_pos (by omega)]
    simp only [diagBlocks, ih (by omega), bind, Except.bind, getItem, hget, pure, Except.pure, hd]
    congr 1
    funext i
    refine Fin.lastCases ?_ (fun j => ?_) i
    · simp
    · simp

/-- **C64**, an expansion whose functions do not depend on the degree may return one value `v i` each: it is used for every
degree, weight `p` being `Σ_i v i * Σ_d coeffs[p, d, i]`. -/
theorem C64_weights_constant {P : Nat} (l : GalLayer K P) (t : K) (v : Fin l.expfunc.nEig → K)
    (hv : l.expfunc.forward (linspace0 (l.expfunc.deg : K) l.expfunc.deg) (t * l.dilation + l.shift) =
      .ok (List.ofFn (fun i => [v i]))) :
    l.calculateWeights t = .ok (fun p => ∑ i, v i * ∑ d, l.coeffs p d i) := by
  unfold GalLayer.calculateWeights galWeights
  simp only [hv, bind, Except.bind, diagBlocks_const v _ le_rfl, pure, Except.pure]
  congr 1
  funext p
  simp only [Matrix.mul_apply, Matrix.of_apply, Fintype.sum_prod_type, ite_mul, zero_mul]
  rw [Finset.sum_comm]
  refine Finset.sum_congr rfl (fun i _ => ?_)
  rw [Finset.mul_sum]
  refine Finset.sum_congr rfl (fun r _ => ?_)
  simp

/-- Non-vacuity: the expansion by the constant one, of degree three. -/
example (c : Fin 2 → Fin 3 → Fin 1 → ℚ) (t : ℚ) :
    (GalLayer.mk ⟨3, 1, fun _ _ => .ok [[1]]⟩ c 1 0).calculateWeights t = .ok (fun p => ∑ d, c p d 0) := by
  rw [C64_weights_constant (GalLayer.mk ⟨3, 1, fun _ _ => .ok [[1]]⟩ c 1 0) t (fun _ => 1) rfl]
  simp

/-- **C64.** The forward pass of `GalLinear`: an affine map of the data columns, with weight `[o, i]` from coefficient
`o * in + i` and bias `[o]` from coefficient `in * out + o`, the same for all rows, at the depth in the last row. -/
theorem C64_forward {inF outF R : Nat} (g : GalLinear K inF outF) (hb : g.bias = true)
    (input : Fin (R + 1) → Fin (inF + 1) → K)
    (φ : Fin g.layer.expfunc.nEig → Fin g.layer.expfunc.deg → K)
    (hφ : g.layer.expfunc.forward (linspace0 (g.layer.expfunc.deg : K) g.layer.expfunc.deg)
      (input (Fin.last R) (Fin.last inF) * g.layer.dilation + g.layer.shift) =
      .ok (List.ofFn (fun i => List.ofFn (φ i)))) :
    ∃ out, g.forward input = .ok out ∧ ∀ (r : Fin (R + 1)) (o : Fin outF) (hw : ∀ i : Fin inF, o.val * inF + i.val < (inF + 1) * outF)
      (hc : inF * outF + o.val < (inF + 1) * outF),
      out r o = (∑ i : Fin inF, input r i.castSucc * (∑ e, ∑ d, φ e d * g.layer.coeffs ⟨o.val * inF + i.val, hw i⟩ d e)) +
        ∑ e, ∑ d, φ e d * g.layer.coeffs ⟨inF * outF + o.val, hc⟩ d e := by
  simp only [GalLinear.forward, C64_weights g.layer _ φ hφ, bind, Except.bind, hb, pure, Except.pure,
    Bool.true_eq_false, if_false]
  exact ⟨_, rfl, fun r o hw hc => rfl⟩

/-- The index conditions in `C64_forward` always hold. -/
theorem C64_index {inF outF : Nat} (o : Fin outF) :
    (∀ i : Fin inF, o.val * inF + i.val < (inF + 1) * outF) ∧ inF * outF + o.val < (inF + 1) * outF := by
  have h1 := o.isLt
  refine ⟨fun i => ?_, ?_⟩
  · have h2 := i.isLt
    have : (o.val + 1) * inF ≤ outF * inF := Nat.mul_le_mul_right inF h1
    rw [Nat.succ_mul] at this
    rw [Nat.add_mul, Nat.mul_comm inF]
    omega
  · rw [Nat.add_mul]
    omega

/-- **C64.** A freshly initialised layer outputs zero, whatever the input and the expansion. -/
theorem C64_init_zero {inF outF R : Nat} (expfunc : ExpFunc K) (input : Fin (R + 1) → Fin (inF + 1) → K)
    (φ : Fin expfunc.nEig → Fin expfunc.deg → K)
    (hφ : expfunc.forward (linspace0 (expfunc.deg : K) expfunc.deg) (input (Fin.last R) (Fin.last inF)) =
      .ok (List.ofFn (fun i => List.ofFn (φ i)))) :
    (GalLinear.mk (inF := inF) (outF := outF) (GalLayer.init expfunc _) true).forward input = .ok (fun _ _ => 0) := by
  obtain ⟨out, h, hout⟩ := C64_forward (GalLinear.mk (inF := inF) (outF := outF) (GalLayer.init expfunc _) true) rfl input φ
    (by simpa [GalLayer.init] using hφ)
  rw [h]
  congr 1
  funext r o
  rw [hout r o (C64_index o).1 (C64_index o).2]
  simp [GalLayer.init]

end galerkin

theorem linspace0_eq_ofFn {K : Type} [Field K] (dt : K) (n : Nat) :
    linspace0 dt n = List.ofFn (fun i : Fin n => (i.val : K) * (dt / ((n : K) - 1))) := by
  unfold linspace0
  rw [List.ofFn_eq_map, ← List.map_coe_finRange_eq_range, List.map_map]
  rfl

/-- The hypothesis of C64 is met by `Fourier` of every degree at every depth, with the cosines first. -/
theorem C64_fourier (deg : Nat) (s : ℝ) :
    (fourier deg).forward (linspace0 ((fourier deg).deg : ℝ) (fourier deg).deg) s =
      .ok (List.ofFn (fun i : Fin 2 => List.ofFn (fun d : Fin deg =>
        if i = 0 then Real.cos (s * (d.val * (deg / ((deg : ℝ) - 1)))) else
          Real.sin (s * (d.val * (deg / ((deg : ℝ) - 1))))))) := by
  simp only [fourier, linspace0_eq_ofFn, pure, Except.pure, List.map_ofFn]
  simp [List.ofFn_succ, Function.comp_def]

/-! ### C65 -/

section chebyshev

variable {K : Type} [Field K]

open Polynomial in
theorem chebLoop_eq (s : K) : ∀ (k j : Nat),
    chebLoop s k ((Chebyshev.T K j).eval s) ((Chebyshev.T K (j + 1 : ℕ)).eval s) =
      (List.range k).map (fun i : ℕ => (Chebyshev.T K ((j + 2 + i : ℕ) : ℤ)).eval s) := by
  intro k
  induction k with
  | zero => intro j; rfl
  | succ k ih =>
    intro j
    have hrec : (Chebyshev.T K (j + 1 : ℕ)).eval s * (2 * s) - (Chebyshev.T K j).eval s =
        (Chebyshev.T K ((j + 2 : ℕ) : ℤ)).eval s := by
      have := Chebyshev.T_add_two K (j : ℤ)
      push_cast
      rw [this]
      simp
      ring
    rw [chebLoop, hrec]
    have := ih (j + 1)
    rw [show j + 1 + 1 = j + 2 by ring] at this
    rw [this, List.range_succ_eq_map, List.map_cons, List.map_map]
    refine congrArg₂ _ ?_ ?_
    · simp
    · refine List.map_congr_left (fun i _ => ?_)
      simp only [Function.comp]
      rw [show j + 1 + 2 + i = j + 2 + i.succ by omega]

open Polynomial in
/-- The expansion up to the integer part `N ≥ 2` of the last entry of `n_range`: the first `N` Chebyshev polynomials. -/
theorem chebForward_eq (toNat : K → Nat) (nRange : List K) (last s : K) (hl : nRange.getLast? = some last)
    (h2 : 2 ≤ toNat last) :
    chebForward toNat nRange s = .ok [(List.range (toNat last)).map (fun k : ℕ => (Chebyshev.T K (k : ℤ)).eval s)] := by
  have h := chebLoop_eq s (toNat last - 2) 0
  simp only [Nat.cast_zero, Chebyshev.T_zero, eval_one, zero_add, Nat.cast_one, Chebyshev.T_one, eval_X] at h
  simp only [chebForward, getLastItem, hl, bind, Except.bind, pure, Except.pure]
  rw [if_pos (by omega), h]
  congr 2
  obtain ⟨N, hN⟩ : ∃ N, toNat last = N + 2 := ⟨toNat last - 2, by omega⟩
  rw [hN, Nat.add_sub_cancel, List.range_succ_eq_map, List.range_succ_eq_map]
  simp only [List.map_cons, List.map_map]
  refine congrArg₂ _ (by simp) (congrArg₂ _ (by simp) ?_)
  refine List.map_congr_left (fun i _ => ?_)
  simp only [Function.comp]
  rw [show 2 + i = i.succ.succ by omega]

open Polynomial in
/-- **C65**, in a Galerkin layer of every degree `deg ≥ 1`: the expansion has `deg` entries, and entry `k` is `T_k(s)`. -/
theorem C65_layer_partial [CharZero K] (toNat : K → Nat) (hz : toNat 0 = 0) (deg : Nat) (hdeg : 1 ≤ deg)
    (ht : toNat (deg : K) = deg) (s : K) :
    (chebychev toNat deg).forward (linspace0 (deg : K) deg) s =
      .ok [(List.range deg).map (fun k : ℕ => (Chebyshev.T K (k : ℤ)).eval s)] := by
  rcases Nat.lt_or_ge deg 2 with h | h
  · obtain rfl : deg = 1 := by omega
    simp [chebychev, chebForward, linspace0, getLastItem, bind, Except.bind, pure, Except.pure, hz, List.range_succ]
  · have hl : (linspace0 (deg : K) deg).getLast? = some (deg : K) := by
      obtain ⟨n, rfl⟩ : ∃ n, deg = n + 2 := ⟨deg - 2, by omega⟩
      unfold linspace0
      rw [List.range_succ, List.map_append]
      simp only [List.map_cons, List.map_nil, List.getLast?_append, List.getLast?_singleton, Option.some_or]
      congr 1
      push_cast
      have : ((n : K) + 2 - 1) ≠ 0 := by
        rw [show (n : K) + 2 - 1 = ((n + 1 : ℕ) : K) by push_cast; ring]
        exact_mod_cast Nat.succ_ne_zero n
      field_simp
      ring
    have := chebForward_eq toNat (linspace0 (deg : K) deg) (deg : K) s hl (by omega)
    rw [ht] at this
    exact this

open Polynomial in
/-- **C65**, the weights of a layer with the `Chebychev` basis: `Σ_k T_k(t * dilation + shift) * coeffs[p, k, 0]`, a Chebyshev
expansion of degree `deg - 1` in the depth. -/
theorem C65_weights_partial [CharZero K] (toNat : K → Nat) (hz : toNat 0 = 0) (deg : Nat) (hdeg : 1 ≤ deg)
    (ht : toNat (deg : K) = deg) {P : Nat} (coeffs : Fin P → Fin deg → Fin 1 → K) (dilation shift t : K) :
    (GalLayer.mk (chebychev toNat deg) coeffs dilation shift).calculateWeights t =
      .ok (fun p => ∑ k : Fin deg, (Chebyshev.T K (k.val : ℤ)).eval (t * dilation + shift) * coeffs p k 0) := by
  have h := C65_layer_partial toNat hz deg hdeg ht (t * dilation + shift)
  rw [C64_weights (GalLayer.mk (chebychev toNat deg) coeffs dilation shift) t
    (fun _ k => (Chebyshev.T K (k.val : ℤ)).eval (t * dilation + shift))]
  · congr 1
    funext p
    exact Fin.sum_univ_one _
  · refine h.trans ?_
    have e : (List.range deg).map (fun k : ℕ => (Chebyshev.T K (k : ℤ)).eval (t * dilation + shift)) =
        List.ofFn (fun k : Fin deg => (Chebyshev.T K (k.val : ℤ)).eval (t * dilation + shift)) := by
      rw [List.ofFn_eq_map, ← List.map_coe_finRange_eq_range, List.map_map]
      rfl
    rw [e]
    rfl

/-- **C65 is false** when the module is called with the degrees `0, …, N` themselves, `N ≥ 2`: there are only `N` entries
for the `N + 1` degrees; `T_N` is missing. -/
theorem C65_direct_refuted (toNat : K → Nat) (N : Nat) (hN : 2 ≤ N) (ht : toNat (N : K) = N) (s : K) :
    ∃ b, chebForward toNat ((List.range (N + 1)).map (fun k : ℕ => (k : K))) s = .ok [b] ∧ b.length = N := by
  have hl : ((List.range (N + 1)).map (fun k : ℕ => (k : K))).getLast? = some (N : K) := by
    rw [List.range_succ, List.map_append]
    simp
  refine ⟨_, chebForward_eq toNat _ (N : K) s hl (by omega), ?_⟩
  rw [List.length_map, List.length_range, ht]

/-- Concretely, in a layer of degree `4` at `s = 1/2`. -/
example : (chebychev (fun q : ℚ => q.floor.toNat) 4).forward (linspace0 4 4) (1 / 2) = .ok [[1, 1 / 2, -1 / 2, -1]] := by
  decide +kernel

end chebyshev

/-! ### C78 -/

/-- **C78**, what holds: there are `deg` degrees, they start at `0`, end at `deg` (not `deg - 1`) and are equally spaced. -/
theorem C78_spacing_partial (deg : Nat) (h : 2 ≤ deg) :
    (linspace0 (deg : ℝ) deg).length = deg ∧ (linspace0 (deg : ℝ) deg)[0]? = some 0 ∧
      (linspace0 (deg : ℝ) deg).getLast? = some (deg : ℝ) ∧
      ∀ (k : ℕ) (a b : ℝ), (linspace0 (deg : ℝ) deg)[k]? = some a → (linspace0 (deg : ℝ) deg)[k + 1]? = some b →
        b - a = deg / ((deg : ℝ) - 1) := by
  have e : linspace0 (deg : ℝ) deg = (List.range deg).map (fun k : ℕ => (k : ℝ) * (deg / ((deg : ℝ) - 1))) := rfl
  have h1 : ((deg : ℝ) - 1) ≠ 0 := by
    have : (2 : ℝ) ≤ deg := by exact_mod_cast h
    intro h0
    linarith
  have hl : ∀ (k : ℕ) (a : ℝ), (linspace0 (deg : ℝ) deg)[k]? = some a → a = k * (deg / ((deg : ℝ) - 1)) := by
    intro k a ha
    rw [e, List.getElem?_map] at ha
    obtain ⟨j, hj, rfl⟩ := Option.map_eq_some_iff.1 ha
    obtain ⟨_, rfl⟩ := List.getElem?_eq_some_iff.1 hj
    rw [List.getElem_range]
  refine ⟨by simp [e], ?_, ?_, ?_⟩
  · rw [e, List.getElem?_map, List.getElem?_range (by omega)]
    simp
  · rw [e, List.getLast?_eq_getElem?, List.length_map, List.length_range, List.getElem?_map,
      List.getElem?_range (by omega)]
    simp only [Option.map_some, Option.some.injEq]
    rw [Nat.cast_sub (by omega), Nat.cast_one]
    field_simp
  · intro k a b ha hb
    rw [hl _ _ ha, hl _ _ hb]
    push_cast
    ring

/-- **C78 is false** for every `deg ≥ 3`: the second degree is not an integer. -/
theorem C78_degrees_refuted (deg : Nat) (h : 3 ≤ deg) :
    ∃ v : ℝ, (linspace0 (deg : ℝ) deg)[1]? = some v ∧ ∀ z : ℤ, v ≠ (z : ℝ) := by
  refine ⟨deg / ((deg : ℝ) - 1), ?_, ?_⟩
  · unfold linspace0
    rw [List.getElem?_map, List.getElem?_range (by omega)]
    simp
  · intro z hz
    have hd : (3 : ℝ) ≤ deg := by exact_mod_cast h
    have hpos : (0 : ℝ) < (deg : ℝ) - 1 := by linarith
    rw [div_eq_iff hpos.ne'] at hz
    have h1 : (1 : ℝ) < z := by
      by_contra hle
      push Not at hle
      have : (z : ℝ) * ((deg : ℝ) - 1) ≤ 1 * ((deg : ℝ) - 1) := mul_le_mul_of_nonneg_right hle hpos.le
      linarith
    have h2 : (2 : ℝ) ≤ z := by exact_mod_cast (by exact_mod_cast h1 : (1 : ℤ) < z)
    have : 2 * ((deg : ℝ) - 1) ≤ (z : ℝ) * ((deg : ℝ) - 1) := mul_le_mul_of_nonneg_right h2 hpos.le
    linarith

/-- **C78 is false**, seen in the expansion: the second entry of the `Polynomial` expansion of a layer of degree `3` at `t = 4`
is `4^(3/2) = 8`, not `4`. -/
theorem C78_polynomial_refuted :
    ∃ b, (polynomialBasis 3).forward (linspace0 (3 : ℝ) 3) 4 = .ok [b] ∧ b[1]? = some 8 := by
  refine ⟨_, rfl, ?_⟩
  simp only [linspace0, List.getElem?_map, List.getElem?_range (show 1 < 3 by norm_num), Option.map_some]
  congr 1
  rw [show ((1 : ℕ) : ℝ) * (3 / ((3 : ℕ) - 1)) = 3 / 2 by norm_num]
  rw [show (4 : ℝ) = 2 ^ (2 : ℝ) by norm_num, ← Real.rpow_mul (by norm_num)]
  norm_num

/-! ### C79 -/

/-- **C79 is false** for `bias=False`: the forward pass never returns. -/
theorem C79_no_bias_refuted {K : Type} [Field K] {inF outF R : Nat} (g : GalLinear K inF outF) (hb : g.bias = false)
    (input : Fin R → Fin (inF + 1) → K) : ∃ e, g.forward input = .error e := by
  match R, input with
  | 0, _ => exact ⟨_, rfl⟩
  | R + 1, input =>
    simp only [GalLinear.forward, bind, Except.bind, hb, if_true]
    cases g.layer.calculateWeights (input (Fin.last R) (Fin.last inF)) with
    | error e => exact ⟨e, rfl⟩
    | ok w => exact ⟨_, rfl⟩

theorem broadcast2_mismatch {α β γ : Type} (op : α → β → γ) (a : List α) (b : List β) (h : a.length ≠ b.length)
    (ha : a.length ≠ 1) (hb : b.length ≠ 1) : broadcast2 op a b = .error .runtimeError := by
  unfold broadcast2
  rw [if_neg h]
  match a, b, ha, hb with
  | [], [], _, _ => exact absurd rfl h
  | [], _ :: _ :: _, _, _ => rfl
  | _ :: _ :: _, [], _, _ => rfl
  | _ :: _ :: _, _ :: _ :: _, _, _ => rfl
  | [_], _, ha, _ => exact absurd rfl ha
  | _, [_], _, hb => exact absurd rfl hb

theorem diagBlock_two (v w : ℝ) (l : List ℝ) :
    diagBlock 1 (v :: w :: l) = .error .runtimeError := by
  unfold diagBlock
  rw [dif_neg (by simp)]
  rfl

theorem diagBlocks_one_two (v w : ℝ) : diagBlocks 1 [[v, w]] 1 = .error .runtimeError := by
  simp only [diagBlocks, bind, Except.bind, pure, Except.pure, getItem, List.getElem?_cons_zero, diagBlock_two]

/-- **C79 is false** for adaptive radial basis functions: for every kind, degree, parameters and depth the layer raises
`RuntimeError`, because the `deg + 1` centers and scales do not match the `deg` degrees. -/
theorem C79_adaptive_rbf_refuted (kind : RbfKind) (deg : Nat) (hdeg : 1 ≤ deg) (eps centers : ℝ) {P : Nat}
    (coeffs : Fin P → Fin deg → Fin 1 → ℝ) (dilation shift t : ℝ) :
    (GalLayer.mk (rbf kind deg true eps centers) coeffs dilation shift).calculateWeights t = .error .runtimeError := by
  have hlen : (linspace0 (deg : ℝ) deg).length = deg := by simp [linspace0]
  rcases Nat.lt_or_ge deg 2 with h | h
  · obtain rfl : deg = 1 := by omega
    have hl : linspace0 ((1 : ℕ) : ℝ) 1 = [0] := by simp [linspace0]
    cases kind
    all_goals
      simp only [GalLayer.calculateWeights, galWeights, rbf, RbfParams.make, if_true, gaussianForward, vanillaForward, multiquadForward,
        hl]
      simp only [broadcast2, List.replicate, List.length_cons, List.length_nil, List.map_cons, List.map_nil, bind,
        Except.bind, pure, Except.pure, Nat.reduceAdd, Nat.reduceEqDiff, if_false, if_true,
        List.zipWith_cons_cons, List.zipWith_nil_left, diagBlocks_one_two]
  · have hm : ∀ (op : ℝ → ℝ → ℝ) (c : ℝ), broadcast2 op (linspace0 (deg : ℝ) deg) (List.replicate (deg + 1) c) =
        .error .runtimeError := by
      intro op c
      refine broadcast2_mismatch op _ _ ?_ ?_ ?_
      · rw [hlen, List.length_replicate]
        omega
      · rw [hlen]
        omega
      · rw [List.length_replicate]
        omega
    cases kind
    all_goals
      simp only [GalLayer.calculateWeights, galWeights, rbf, RbfParams.make, if_true, gaussianForward, vanillaForward, multiquadForward,
        hm, bind, Except.bind]

theorem broadcast2_single {α β γ : Type} (op : α → β → γ) (a : List α) (y : β) :
    broadcast2 op a [y] = .ok (a.map (fun x => op x y)) := by
  match a with
  | [] => rfl
  | [_] => rfl
  | _ :: _ :: _ => rfl

/-- The documented radial functions. -/
noncomputable def rbfProfile : RbfKind → ℝ → ℝ
  | .gaussian, ρ => Real.exp (-ρ ^ 2)
  | .vanilla, ρ => ρ
  | .multiquad, ρ => 1 + Real.sqrt (1 + ρ ^ 2)

/-- **C79**, what holds: without `adaptive` each radial basis function gives one entry per degree, so by `C64_forward` the layer
with bias computes its forward pass. Entry `d` is the radial function at `|s| n_d / 2`, with center `0` and scale `2` whatever
the arguments, `n_d = d * deg / (deg - 1)`. -/
theorem C79_fixed_rbf_partial (kind : RbfKind) (deg : Nat) (eps centers s : ℝ) :
    (rbf kind deg false eps centers).forward (linspace0 (deg : ℝ) deg) s =
      .ok (List.ofFn (fun _ : Fin 1 => List.ofFn (fun d : Fin deg =>
        rbfProfile kind (|s| * (d.val * (deg / ((deg : ℝ) - 1)) / 2))))) := by
  have hr : ∀ a b, rbfRadius ⟨[0], [a]⟩ b = |b| := by
    intro a b
    simp [rbfRadius, Real.sqrt_sq_eq_abs]
  cases kind
  all_goals
    simp only [rbf, RbfParams.make, Bool.false_eq_true, if_false, gaussianForward, vanillaForward, multiquadForward,
      broadcast2_single, bind, Except.bind, pure, Except.pure, linspace0_eq_ofFn, List.map_ofFn, hr, List.ofFn_succ,
      List.ofFn_zero, rbfProfile]
  · congr 3
    funext d
    simp [Function.comp]
  · rfl
  · rfl

end Torchdyn
