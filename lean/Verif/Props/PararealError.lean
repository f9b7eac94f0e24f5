import Verif.Props.Shooting
import Verif.Props.Hyper
import Mathlib.Analysis.SpecialFunctions.Exp

/-!
C113: how far the parareal solver `MSZero` (`/repo/torchdyn/numerics/solvers/ode.py:222-249`, called from
`/repo/torchdyn/numerics/odeint.py:153-179`) is from the sequential fine solution when it is stopped early.
-/

set_option linter.unusedSectionVars false

namespace Torchdyn

open Spec

variable {V A : Type} [NormedAddCommGroup V] [NormedSpace ℝ V]
  {coarseS fineS : SolverFamily (Except PyErr) ℝ A} {args : A} {f : ℝ → V → V} {φc φf : V → ℝ → ℝ → V}

/-- The bound after `k` iterations at node `m`: `γ αᵏ β^(m-k-1) C(m, k+1)`, zero for `m ≤ k`. -/
noncomputable def pararealBound (γ α β : ℝ) (k m : ℕ) : ℝ := γ * α ^ k * β ^ (m - (k + 1)) * (m.choose (k + 1) : ℝ)

theorem pararealBound_succ (γ α β : ℝ) (k m : ℕ) :
    α * pararealBound γ α β k m + β * pararealBound γ α β (k + 1) m = pararealBound γ α β (k + 1) (m + 1) := by
  unfold pararealBound
  rw [Nat.choose_succ_succ m (k + 1)]
  rcases Nat.lt_or_ge m (k + 2) with h | h
  · rw [Nat.choose_eq_zero_of_lt (show m < k + 1 + 1 by omega)]
    have e1 : m - (k + 1) = 0 := by omega
    have e2 : m + 1 - (k + 1 + 1) = 0 := by omega
    rw [e1, e2]
    push_cast
    ring
  · have e1 : m - (k + 1) = (m - (k + 1 + 1)) + 1 := by omega
    have e2 : m + 1 - (k + 1 + 1) = (m - (k + 1 + 1)) + 1 := by omega
    rw [e1, e2]
    push_cast
    ring

/-- **C113.** Parareal stopped after `maxiter + 1` iterations: when the coarse map over a segment is `β`-Lipschitz and the
difference of the fine and coarse maps is `α`-Lipschitz, and every row of the initial guess is within `γ` of the sequential fine
solution, the result at node `m` is within `γ α^(maxiter+1) β^(m-maxiter-2) C(m, maxiter+2)` of it. -/
theorem C113_parareal (hc : Rowwise coarseS args f φc) (hf : Rowwise fineS args f φf) (x : V)
    (t0 t1 : ℝ) (rest : List ℝ) (B0 : List V) (hlen : B0.length = (t0 :: t1 :: rest).length)
    (hx : B0[0]? = some x) (fineSteps maxiter : ℕ) (h2 : 2 ≤ fineSteps)
    (hsep : Separated (uniformGrid 0 (t1 - t0) fineSteps)) (hmax : maxiter < (t0 :: t1 :: rest).length)
    {α β γ : ℝ} (hα : 0 ≤ α) (hβ : 1 ≤ β)
    (hC : ∀ y z, ‖propagate φc y (uniformGrid 0 (t1 - t0) fineSteps) - propagate φc z (uniformGrid 0 (t1 - t0) fineSteps)‖ ≤
      β * ‖y - z‖)
    (hD : ∀ y z, ‖(propagate φf y (uniformGrid 0 (t1 - t0) fineSteps) - propagate φc y (uniformGrid 0 (t1 - t0) fineSteps)) -
      (propagate φf z (uniformGrid 0 (t1 - t0) fineSteps) - propagate φc z (uniformGrid 0 (t1 - t0) fineSteps))‖ ≤ α * ‖y - z‖)
    (hγ : ∀ (m : ℕ) (b : V), B0[m]? = some b →
      ‖b - (fun y => propagate φf y (uniformGrid 0 (t1 - t0) fineSteps))^[m] x‖ ≤ γ) :
    ∃ B, odeintMsZero coarseS fineS args (fun t x => .ok (f t x)) (rowField f) x (t0 :: t1 :: rest)
        (some B0) fineSteps maxiter = .ok (t0 :: t1 :: rest, B) ∧
      B.length = (t0 :: t1 :: rest).length ∧
      ∀ (m : ℕ) (b : V), B[m]? = some b →
        ‖b - (fun y => propagate φf y (uniformGrid 0 (t1 - t0) fineSteps))^[m] x‖ ≤
          γ * α ^ (maxiter + 1) * β ^ (m - (maxiter + 2)) * (m.choose (maxiter + 2) : ℝ) := by
  have hgrid : uniformGrid 0 (t1 - t0) fineSteps = linspace0 (t1 - t0) fineSteps := by
    simp [uniformGrid, linspace0]
  rw [hgrid] at hsep hC hD hγ ⊢
  generalize hG : (fun y : V => propagate φf y (linspace0 (t1 - t0) fineSteps)) = G at hγ ⊢
  generalize hCC : (fun y : V => propagate φc y (linspace0 (t1 - t0) fineSteps)) = C
  have hC' : ∀ y z, ‖C y - C z‖ ≤ β * ‖y - z‖ := by rw [← hCC]; exact hC
  have hD' : ∀ y z, ‖(G y - C y) - (G z - C z)‖ ≤ α * ‖y - z‖ := by rw [← hCC, ← hG]; exact hD
  have hγ0 : 0 ≤ γ := (norm_nonneg _).trans (hγ 0 x hx)
  obtain ⟨B, e, h1, h3⟩ := msZeroLoop_ok C G (fun i B => ∀ (m : ℕ) (b : V), B[m]? = some b →
      ‖b - G^[m] x‖ ≤ pararealBound γ α β i m) (t0 :: t1 :: rest).length
    (by
      intro i B B' hl hi h hp m
      induction m with
      | zero =>
        intro b hb
        rw [hp.keep 0 (Nat.zero_le _)] at hb
        have := h 0 b hb
        simpa [pararealBound] using this
      | succ m ih =>
        intro b' hb'
        rcases Nat.lt_or_ge i (m + 1) with hlt | hge
        · obtain ⟨hm, -⟩ := List.getElem?_eq_some_iff.1 hb'
          have hmB : m + 1 < B.length := by rw [← hp.len]; exact hm
          obtain ⟨p, hp'⟩ : ∃ p, B'[m]? = some p := ⟨B'[m], List.getElem?_eq_getElem (by omega)⟩
          obtain ⟨b, hb⟩ : ∃ b, B[m]? = some b := ⟨B[m], List.getElem?_eq_getElem (by omega)⟩
          have hn := hp.next (m + 1) hlt hmB p b hp' hb
          rw [hb'] at hn
          rw [Option.some.inj hn, Function.iterate_succ_apply']
          have e1 : C p - C b + G b - G (G^[m] x) = ((G b - C b) - (G (G^[m] x) - C (G^[m] x))) + (C p - C (G^[m] x)) := by abel
          rw [e1]
          refine (norm_add_le _ _).trans ?_
          rw [← pararealBound_succ]
          exact add_le_add ((hD' _ _).trans (mul_le_mul_of_nonneg_left (h m b hb) hα))
            ((hC' _ _).trans (mul_le_mul_of_nonneg_left (ih p hp') (by linarith)))
        · rw [hp.keep (m + 1) hge] at hb'
          have := h (m + 1) b' hb'
          unfold pararealBound at this ⊢
          rw [Nat.choose_eq_zero_of_lt (show m + 1 < i + 1 by omega)] at this
          rw [Nat.choose_eq_zero_of_lt (show m + 1 < i + 1 + 1 by omega)]
          simpa using this)
    (maxiter + 1) 0 B0 hlen (by omega) (by
      intro m b hb
      rcases m with _ | m
      · rw [hx] at hb
        cases hb
        simp [pararealBound]
      · refine (hγ _ b hb).trans ?_
        unfold pararealBound
        rw [pow_zero, mul_one, Nat.choose_one_right, mul_assoc]
        refine le_mul_of_one_le_right hγ0 ?_
        refine one_le_mul_of_one_le_of_one_le (one_le_pow₀ hβ) ?_
        exact_mod_cast Nat.succ_le_succ (Nat.zero_le m))
  refine ⟨B, ?_, h1, by rw [zero_add] at h3; exact h3⟩
  simp only [odeintMsZero, bind, Except.bind, pure, Except.pure,
    msZero_eq hc hf t0 t1 rest B0 fineSteps maxiter h2 hsep]
  rw [hG, hCC, show (fun x : V => (.ok (propagate φc x (linspace0 (t1 - t0) fineSteps)) : Except PyErr V)) = fun x => .ok (C x) by
    rw [← hCC], e]

/-! ### The constants for Lipschitz fields -/

/-- The increment of the one-step map `φ` over steps up to `Δ` is Lipschitz with constant `κ` times the step. -/
def IncrementLipschitz (κ Δ : ℝ) (φ : V → ℝ → ℝ → V) : Prop :=
  ∀ x y t h, 0 ≤ h → h ≤ Δ → ‖(φ x t h - x) - (φ y t h - y)‖ ≤ κ * h * ‖x - y‖

theorem propagate_increment {κ Δ : ℝ} (hκ : 0 ≤ κ) {φ : V → ℝ → ℝ → V} (hφ : IncrementLipschitz κ Δ φ) :
    ∀ (ts : List ℝ) (t0 : ℝ) (x y : V), (t0 :: ts).Pairwise (· ≤ ·) → (t0 :: ts).getLast (by simp) - t0 ≤ Δ →
      ‖(propagate φ x (t0 :: ts) - x) - (propagate φ y (t0 :: ts) - y)‖ ≤
        (Real.exp (κ * ((t0 :: ts).getLast (by simp) - t0)) - 1) * ‖x - y‖ := by
  intro ts
  induction ts with
  | nil => intro t0 x y _ _; simp [propagate]
  | cons t1 ts ih =>
    intro t0 x y hm hΔ
    have hle : t0 ≤ t1 := (List.pairwise_cons.1 hm).1 t1 (by simp)
    have hlast : t1 ≤ (t1 :: ts).getLast (by simp) := by
      rcases List.mem_cons.1 (List.getLast_mem (l := t1 :: ts) (by simp)) with h | h
      · exact h.ge
      · exact (List.pairwise_cons.1 (List.pairwise_cons.1 hm).2).1 _ h
    rw [List.getLast_cons (by simp)] at hΔ ⊢
    generalize hE : (t1 :: ts).getLast (by simp) = E at hΔ hlast ⊢
    have hstep := hφ x y t0 (t1 - t0) (by linarith) (by linarith)
    have hr := ih t1 (φ x t0 (t1 - t0)) (φ y t0 (t1 - t0)) (List.pairwise_cons.1 hm).2 (by rw [hE]; linarith)
    rw [hE] at hr
    rw [propagate, propagate]
    generalize φ x t0 (t1 - t0) = x' at hstep hr ⊢
    generalize φ y t0 (t1 - t0) = y' at hstep hr ⊢
    have hxy' : ‖x' - y'‖ ≤ Real.exp (κ * (t1 - t0)) * ‖x - y‖ := by
      have e1 : x' - y' = (x - y) + ((x' - x) - (y' - y)) := by abel
      rw [e1]
      refine (norm_add_le _ _).trans ((add_le_add le_rfl hstep).trans ?_)
      have := mul_le_mul_of_nonneg_right (Real.add_one_le_exp (κ * (t1 - t0))) (norm_nonneg (x - y))
      linarith
    have hx1 : ‖(x' - x) - (y' - y)‖ ≤ (Real.exp (κ * (t1 - t0)) - 1) * ‖x - y‖ :=
      hstep.trans (mul_le_mul_of_nonneg_right (by linarith [Real.add_one_le_exp (κ * (t1 - t0))]) (norm_nonneg _))
    have e2 : ∀ P Q : V, (P - x) - (Q - y) = ((P - x') - (Q - y')) + ((x' - x) - (y' - y)) := by intro P Q; abel
    rw [e2]
    have h0 : 0 ≤ Real.exp (κ * (E - t1)) - 1 := by
      have := Real.one_le_exp (mul_nonneg hκ (by linarith : 0 ≤ E - t1))
      linarith
    refine (norm_add_le _ _).trans ((add_le_add (hr.trans (mul_le_mul_of_nonneg_left hxy' h0)) hx1).trans (le_of_eq ?_))
    rw [show κ * (E - t0) = κ * (E - t1) + κ * (t1 - t0) by ring, Real.exp_add]
    ring

theorem uniformGrid_shape {Δ : ℝ} (hΔ : 0 ≤ Δ) {n : ℕ} (hn : 2 ≤ n) :
    ∃ ts, uniformGrid 0 Δ n = 0 :: ts ∧ (0 :: ts).Pairwise (· ≤ ·) ∧ (0 :: ts).getLast (by simp) = Δ := by
  obtain ⟨k, rfl⟩ : ∃ k, n = k + 2 := ⟨n - 2, by omega⟩
  have hpos : (0 : ℝ) < ((k + 2 : ℕ) : ℝ) - 1 := by push_cast; linarith [Nat.cast_nonneg (α := ℝ) k]
  have hshape : uniformGrid (0 : ℝ) Δ (k + 2) = 0 :: (List.range (k + 1)).map
      (fun i : ℕ => ((i + 1 : ℕ) : ℝ) * (Δ / (((k + 2 : ℕ) : ℝ) - 1))) := by
    unfold uniformGrid
    rw [List.range_succ_eq_map, List.map_cons, List.map_map]
    simp
  refine ⟨_, hshape, ?_, ?_⟩
  · rw [← hshape]
    unfold uniformGrid
    rw [List.pairwise_map]
    refine List.Pairwise.imp (fun {a b} (h : a < b) => ?_) List.pairwise_lt_range
    have h1 : (a : ℝ) ≤ b := by exact_mod_cast h.le
    have h2 : 0 ≤ (Δ - 0) / (((k + 2 : ℕ) : ℝ) - 1) := div_nonneg (by linarith) hpos.le
    have := mul_le_mul_of_nonneg_right h1 h2
    linarith
  · rw [List.getLast_cons (by simp), List.getLast_map, List.getLast_range]
    push_cast at hpos ⊢
    have : (k : ℝ) + 2 - 1 = k + 1 := by ring
    rw [this] at hpos ⊢
    field_simp

/-- **C113.** The constants for fields on which both methods have Lipschitz increments, over segments of length
`Δ = t1 - t0`: `α = 2 (exp (κ Δ) - 1)`, which vanishes with the length of the segments, and `β = exp (κ Δ)`. -/
theorem C113_lipschitz (hc : Rowwise coarseS args f φc) (hf : Rowwise fineS args f φf) (x : V)
    (t0 t1 : ℝ) (rest : List ℝ) (hd : t0 ≤ t1) (B0 : List V) (hlen : B0.length = (t0 :: t1 :: rest).length)
    (hx : B0[0]? = some x) (fineSteps maxiter : ℕ) (h2 : 2 ≤ fineSteps)
    (hsep : Separated (uniformGrid 0 (t1 - t0) fineSteps)) (hmax : maxiter < (t0 :: t1 :: rest).length)
    {κ γ : ℝ} (hκ : 0 ≤ κ) (hcκ : IncrementLipschitz κ (t1 - t0) φc) (hfκ : IncrementLipschitz κ (t1 - t0) φf)
    (hγ : ∀ (m : ℕ) (b : V), B0[m]? = some b →
      ‖b - (fun y => propagate φf y (uniformGrid 0 (t1 - t0) fineSteps))^[m] x‖ ≤ γ) :
    ∃ B, odeintMsZero coarseS fineS args (fun t x => .ok (f t x)) (rowField f) x (t0 :: t1 :: rest)
        (some B0) fineSteps maxiter = .ok (t0 :: t1 :: rest, B) ∧
      B.length = (t0 :: t1 :: rest).length ∧
      ∀ (m : ℕ) (b : V), B[m]? = some b →
        ‖b - (fun y => propagate φf y (uniformGrid 0 (t1 - t0) fineSteps))^[m] x‖ ≤
          γ * (2 * (Real.exp (κ * (t1 - t0)) - 1)) ^ (maxiter + 1) * Real.exp (κ * (t1 - t0)) ^ (m - (maxiter + 2)) *
            (m.choose (maxiter + 2) : ℝ) := by
  obtain ⟨ts, hts, hmono, hlast⟩ := uniformGrid_shape (sub_nonneg.2 hd) h2
  have h1 : 1 ≤ Real.exp (κ * (t1 - t0)) := Real.one_le_exp (mul_nonneg hκ (sub_nonneg.2 hd))
  have inc : ∀ φ : V → ℝ → ℝ → V, IncrementLipschitz κ (t1 - t0) φ → ∀ y z,
      ‖(propagate φ y (uniformGrid 0 (t1 - t0) fineSteps) - y) - (propagate φ z (uniformGrid 0 (t1 - t0) fineSteps) - z)‖ ≤
        (Real.exp (κ * (t1 - t0)) - 1) * ‖y - z‖ := by
    intro φ hφ y z
    have := propagate_increment hκ hφ ts 0 y z hmono (by rw [hlast, sub_zero])
    rw [hlast, sub_zero] at this
    rw [hts]
    exact this
  refine C113_parareal hc hf x t0 t1 rest B0 hlen hx fineSteps maxiter h2 hsep hmax (by linarith) h1 ?_ ?_ hγ
  · intro y z
    have h3 := inc φc hcκ y z
    generalize propagate φc y (uniformGrid 0 (t1 - t0) fineSteps) = P at h3 ⊢
    generalize propagate φc z (uniformGrid 0 (t1 - t0) fineSteps) = Q at h3 ⊢
    have e1 : P - Q = ((P - y) - (Q - z)) + (y - z) := by abel
    rw [e1]
    refine (norm_add_le _ _).trans ?_
    linarith
  · intro y z
    have h3 := inc φc hcκ y z
    have h4 := inc φf hfκ y z
    generalize propagate φc y (uniformGrid 0 (t1 - t0) fineSteps) = P at h3 ⊢
    generalize propagate φc z (uniformGrid 0 (t1 - t0) fineSteps) = Q at h3 ⊢
    generalize propagate φf y (uniformGrid 0 (t1 - t0) fineSteps) = P' at h4 ⊢
    generalize propagate φf z (uniformGrid 0 (t1 - t0) fineSteps) = Q' at h4 ⊢
    have e1 : (P' - P) - (Q' - Q) = ((P' - y) - (Q' - z)) - ((P - y) - (Q - z)) := by abel
    rw [e1]
    refine (norm_sub_le _ _).trans ?_
    linarith

theorem euler_increment {L : ℝ} (hL : ∀ t x y, ‖f t x - f t y‖ ≤ L * ‖x - y‖) (Δ : ℝ) :
    IncrementLipschitz L Δ (fun x t dt => x + dt • f t x) := by
  intro x y t h h0 _
  have e1 : (x + h • f t x - x) - (y + h • f t y - y) = h • (f t x - f t y) := by rw [smul_sub]; abel
  rw [e1, norm_smul, Real.norm_of_nonneg h0]
  have := mul_le_mul_of_nonneg_left (hL t x y) h0
  linarith

theorem rk4_increment {L Δ : ℝ} (hL0 : 0 ≤ L) (hL : ∀ t x y, ‖f t x - f t y‖ ≤ L * ‖x - y‖) (hΔ : Δ * L ≤ 1) :
    IncrementLipschitz (2 * L) Δ (rk4Update f) := by
  intro x y t h h0 hΔ'
  have hhL : h * L ≤ 1 := (mul_le_mul_of_nonneg_right hΔ' hL0).trans hΔ
  -- a stage evaluated at `x + s k` with `s ≤ h` and slopes `c L` apart
  have stage : ∀ (τ s c : ℝ) (k k' : V), 0 ≤ s → 0 ≤ c → s * L ≤ 1 → ‖k - k'‖ ≤ c * (L * ‖x - y‖) →
      ‖f τ (x + s • k) - f τ (y + s • k')‖ ≤ (1 + s * L * c) * (L * ‖x - y‖) := by
    intro τ s c k k' hs hc _ hk
    refine (hL _ _ _).trans ?_
    have e1 : x + s • k - (y + s • k') = (x - y) + s • (k - k') := by rw [smul_sub]; abel
    have h1 : ‖x + s • k - (y + s • k')‖ ≤ ‖x - y‖ + s * (c * (L * ‖x - y‖)) := by
      rw [e1]
      refine (norm_add_le _ _).trans (add_le_add le_rfl ?_)
      rw [norm_smul, Real.norm_of_nonneg hs]
      exact mul_le_mul_of_nonneg_left hk hs
    refine (mul_le_mul_of_nonneg_left h1 hL0).trans (le_of_eq ?_)
    ring
  rw [rk4_rkT, rk4_rkT]
  simp only [rkStagesT, comb, List.nil_append, List.cons_append, zero_mul, zero_smul, zero_add, add_zero, smul_zero, smul_add,
    smul_smul, mul_one]
  have hd : 0 ≤ L * ‖x - y‖ := by positivity
  have hh2 : 0 ≤ h * (1 / 2) := by positivity
  have hh2L : h * (1 / 2) * L ≤ 1 / 2 := by linarith
  have k1 : ‖f t x - f t y‖ ≤ 1 * (L * ‖x - y‖) := by rw [one_mul]; exact hL t x y
  generalize f t x = p1 at k1 ⊢
  generalize f t y = q1 at k1 ⊢
  have k2 : ‖f t (x + (h * (1 / 2)) • p1) - f t (y + (h * (1 / 2)) • q1)‖ ≤ 3 / 2 * (L * ‖x - y‖) :=
    (stage t _ 1 p1 q1 hh2 zero_le_one (by linarith) k1).trans (mul_le_mul_of_nonneg_right (by linarith) hd)
  generalize f t (x + (h * (1 / 2)) • p1) = p2 at k2 ⊢
  generalize f t (y + (h * (1 / 2)) • q1) = q2 at k2 ⊢
  have k3 : ‖f (t + 1 / 2 * h) (x + (h * (1 / 2)) • p2) - f (t + 1 / 2 * h) (y + (h * (1 / 2)) • q2)‖ ≤
      7 / 4 * (L * ‖x - y‖) :=
    (stage _ _ _ p2 q2 hh2 (by norm_num) (by linarith) k2).trans (mul_le_mul_of_nonneg_right (by linarith) hd)
  generalize f (t + 1 / 2 * h) (x + (h * (1 / 2)) • p2) = p3 at k3 ⊢
  generalize f (t + 1 / 2 * h) (y + (h * (1 / 2)) • q2) = q3 at k3 ⊢
  have k4 : ‖f (t + 1 / 2 * h) (x + h • p3) - f (t + 1 / 2 * h) (y + h • q3)‖ ≤ 11 / 4 * (L * ‖x - y‖) :=
    (stage _ _ _ p3 q3 h0 (by norm_num) hhL k3).trans (mul_le_mul_of_nonneg_right (by linarith) hd)
  generalize f (t + 1 / 2 * h) (x + h • p3) = p4 at k4 ⊢
  generalize f (t + 1 / 2 * h) (y + h • q3) = q4 at k4 ⊢
  have e2 : ∀ a b c d a' b' c' d' : V, (x + (a + (b + (c + d))) - x) - (y + (a' + (b' + (c' + d'))) - y) =
      (a - a') + (b - b') + (c - c') + (d - d') := by intros; abel
  rw [e2, ← smul_sub, ← smul_sub, ← smul_sub, ← smul_sub]
  have sm : ∀ (c : ℝ) (v : V), 0 ≤ c → ‖(h * c) • v‖ = h * c * ‖v‖ := by
    intro c v hc
    rw [norm_smul, Real.norm_of_nonneg (mul_nonneg h0 hc)]
  refine (norm_add₄_le).trans ?_
  rw [sm _ _ (by norm_num), sm _ _ (by norm_num), sm _ _ (by norm_num), sm _ _ (by norm_num)]
  have m1 := mul_le_mul_of_nonneg_left k1 h0
  have m2 := mul_le_mul_of_nonneg_left k2 h0
  have m3 := mul_le_mul_of_nonneg_left k3 h0
  have m4 := mul_le_mul_of_nonneg_left k4 h0
  have m5 := mul_nonneg h0 hd
  linarith

/-- **C113**, for the default methods of `MSZero`, coarse `euler` and fine `rk4`, on a field with Lipschitz constant `L`, segments
of length `Δ` with `Δ L ≤ 1`: after `k = maxiter + 1` iterations the error at node `m` is at most
`γ (2 (exp (2LΔ) - 1))^k exp (2LΔ)^(m-k-1) C(m, k+1)`. -/
theorem C113_euler_rk4 (args : A) (f : ℝ → V → V) {L : ℝ} (hL0 : 0 ≤ L) (hL : ∀ t x y, ‖f t x - f t y‖ ≤ L * ‖x - y‖) (x : V)
    (t0 t1 : ℝ) (rest : List ℝ) (hd : t0 ≤ t1) (hΔ : (t1 - t0) * L ≤ 1) (B0 : List V)
    (hlen : B0.length = (t0 :: t1 :: rest).length) (hx : B0[0]? = some x) (fineSteps maxiter : ℕ) (h2 : 2 ≤ fineSteps)
    (hsep : Separated (uniformGrid 0 (t1 - t0) fineSteps)) (hmax : maxiter < (t0 :: t1 :: rest).length) {γ : ℝ}
    (hγ : ∀ (m : ℕ) (b : V), B0[m]? = some b →
      ‖b - (fun y => propagate (rk4Update f) y (uniformGrid 0 (t1 - t0) fineSteps))^[m] x‖ ≤ γ) :
    ∃ B, odeintMsZero (eulerFamily ℝ A) (rk4Family ℝ A) args (fun t x => .ok (f t x)) (rowField f) x (t0 :: t1 :: rest)
        (some B0) fineSteps maxiter = .ok (t0 :: t1 :: rest, B) ∧
      B.length = (t0 :: t1 :: rest).length ∧
      ∀ (m : ℕ) (b : V), B[m]? = some b →
        ‖b - (fun y => propagate (rk4Update f) y (uniformGrid 0 (t1 - t0) fineSteps))^[m] x‖ ≤
          γ * (2 * (Real.exp (2 * L * (t1 - t0)) - 1)) ^ (maxiter + 1) * Real.exp (2 * L * (t1 - t0)) ^ (m - (maxiter + 2)) *
            (m.choose (maxiter + 2) : ℝ) := by
  refine C113_lipschitz (euler_rowwise f args) (rk4_rowwise f args) x t0 t1 rest hd B0 hlen hx fineSteps maxiter h2 hsep hmax
    (by positivity) ?_ (rk4_increment hL0 hL hΔ) hγ
  intro y z t h h0 hh
  refine (euler_increment hL (t1 - t0) y z t h h0 hh).trans ?_
  have : 0 ≤ L * h * ‖y - z‖ := by positivity
  linarith

/-- C113 applied to `x' = -x` on `[0, 1/4, 1/2, 3/4, 1]`, two fine points per segment, one iteration (`maxiter = 0`), from the
guess that repeats the initial state: the error at the last node is at most `6 γ · 2 (√e - 1) · e`. -/
example (x γ : ℝ) (hγ : ∀ (m : ℕ) (b : ℝ), [x, x, x, x, x][m]? = some b →
      ‖b - (fun y => propagate (rk4Update fun (_ x : ℝ) => -x) y (uniformGrid 0 ((1 / 4 : ℝ) - 0) 2))^[m] x‖ ≤ γ) :=
  C113_euler_rk4 () (fun (_ x : ℝ) => -x) zero_le_one (fun _ x y => by rw [one_mul, neg_sub_neg, norm_sub_rev]) x 0 (1 / 4)
    [1 / 2, 3 / 4, 1] (by norm_num) (by norm_num) [x, x, x, x, x] rfl rfl 2 0 le_rfl (by
      unfold Separated Close uniformGrid
      simp [List.range_succ]
      norm_num [abs_le]) (by simp) hγ

end Torchdyn
