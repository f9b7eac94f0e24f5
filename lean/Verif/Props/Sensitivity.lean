import Verif.Model.Sensitivity
import Verif.Props.FixedStep
import Verif.Props.OneStep
import Verif.Props.AdaptiveTermination
import Mathlib.LinearAlgebra.BilinearMap

/-!
Adjoint sensitivities and problem classes: C55 (packing), C56 (adjoint gradients of linear fields), C57 (`save_at`
under every sensitivity), C58 (settings of `MultipleShootingProblem`), C74 (gradients with respect to times), C75 (forward values
under every sensitivity).
-/

set_option linter.unusedSimpArgs false
set_option linter.unusedSectionVars false

namespace Torchdyn

open Spec

/-! ### C55 -/

section packing

variable {α : Type}

theorem sliceBound_nonneg (n i : Nat) : sliceBound n (i : Int) = min i n := by
  unfold sliceBound
  rw [if_neg (by omega)]
  simp

theorem sliceBound_neg (n k : Nat) (hk : 0 < k) : sliceBound n (-(k : Int)) = n - k := by
  unfold sliceBound
  rw [if_pos (by omega)]
  omega

/-- **C55.** Slicing the packed adjoint state with the numbers of elements of its parts returns these parts, for every
size, including empty states and parameter vectors. -/
theorem C55_unpack_pack (x lam mu : List α) (lamT : α) :
    unpackAdjoint x.length lam.length mu.length (packAdjoint x lam mu lamT) = (x, lam, mu, [lamT]) := by
  have hl : (packAdjoint x lam mu lamT).length = x.length + lam.length + mu.length + 1 := by
    simp [packAdjoint]
    omega
  unfold unpackAdjoint pySlice
  simp only [hl]
  have e1 : sliceBound (x.length + lam.length + mu.length + 1) (x.length : Int) = x.length := by
    rw [sliceBound_nonneg]; omega
  have e2 : sliceBound (x.length + lam.length + mu.length + 1) ((x.length : Int) + (lam.length : Int)) =
      x.length + lam.length := by
    rw [← Nat.cast_add, sliceBound_nonneg]; omega
  have e3 : sliceBound (x.length + lam.length + mu.length + 1) (-(mu.length : Int) - 1) =
      x.length + lam.length := by
    rw [show -(mu.length : Int) - 1 = -((mu.length + 1 : ℕ) : Int) by push_cast; ring,
      sliceBound_neg _ _ (by omega)]
    omega
  have e4 : sliceBound (x.length + lam.length + mu.length + 1) (-1) = x.length + lam.length + mu.length := by
    rw [show (-1 : Int) = -((1 : ℕ) : Int) by simp, sliceBound_neg _ _ (by omega)]
    omega
  rw [e1, e2, e3, e4]
  have t1 : (packAdjoint x lam mu lamT).take x.length = x := by
    unfold packAdjoint
    rw [List.append_assoc, List.append_assoc, List.take_left]
  have t2 : (packAdjoint x lam mu lamT).take (x.length + lam.length) = x ++ lam := by
    unfold packAdjoint
    rw [List.append_assoc, ← List.length_append, List.take_left]
  have t3 : (packAdjoint x lam mu lamT).take (x.length + lam.length + mu.length) = x ++ lam ++ mu := by
    unfold packAdjoint
    rw [← List.length_append, ← List.length_append, List.take_left]
  have t4 : (packAdjoint x lam mu lamT).take (x.length + lam.length + mu.length + 1) =
      x ++ lam ++ mu ++ [lamT] := by
    rw [← hl, List.take_length]
    rfl
  rw [t1, t2, t3, t4]
  refine Prod.ext ?_ (Prod.ext ?_ (Prod.ext ?_ ?_))
  · simp
  · simp
  · simp only
    rw [← List.length_append, List.drop_left]
  · simp only
    rw [← List.length_append, ← List.length_append, List.drop_left]

/-- **C55**, the other direction: concatenating the four slices, as the backward loop does between two intervals,
gives back every vector of the right total length. -/
theorem C55_pack_unpack (nx nlam nmu : Nat) (A : List α) (h : A.length = nx + nlam + nmu + 1) :
    let u := unpackAdjoint nx nlam nmu A
    u.1 ++ u.2.1 ++ u.2.2.1 ++ u.2.2.2 = A := by
  obtain ⟨B, a, rfl⟩ : ∃ B a, A = B ++ [a] := by
    have hne : A ≠ [] := by rintro rfl; simp at h
    exact ⟨A.dropLast, A.getLast hne, (List.dropLast_append_getLast hne).symm⟩
  have hB : B.length = nx + nlam + nmu := by simpa using h
  have hpack : B ++ [a] = packAdjoint (B.take nx) ((B.drop nx).take nlam) ((B.drop nx).drop nlam) a := by
    unfold packAdjoint
    rw [List.append_assoc (B.take nx), List.take_append_drop, List.take_append_drop]
  have l1 : (B.take nx).length = nx := by simp; omega
  have l2 : ((B.drop nx).take nlam).length = nlam := by simp; omega
  have l3 : ((B.drop nx).drop nlam).length = nmu := by simp; omega
  have := C55_unpack_pack (B.take nx) ((B.drop nx).take nlam) ((B.drop nx).drop nlam) a
  rw [l1, l2, l3, ← hpack] at this
  simp only [this]
  exact hpack.symm

/-- **C55** for the interpolated adjoint, when the field has at least one parameter (the constructor of `ODEProblem`
registers one if there is none). -/
theorem C55_interp (lam mu : List α) (hmu : mu ≠ []) :
    unpackInterp lam.length mu.length (packInterp lam mu) = (lam, mu) := by
  have hpos : 0 < mu.length := List.length_pos_iff.2 hmu
  unfold unpackInterp pySlice packInterp
  simp only [List.length_append]
  rw [sliceBound_nonneg, sliceBound_neg _ _ hpos]
  refine Prod.ext ?_ ?_
  · simp
  · simp only [Nat.add_sub_cancel]
    rw [← List.length_append, List.take_length, List.drop_left]

/-- The condition is needed: with an empty parameter vector `A[-0:]` is the whole vector. -/
theorem C55_interp_empty (lam : List α) (h : lam ≠ []) :
    (unpackInterp lam.length 0 (packInterp lam [])).2 ≠ [] := by
  have : (unpackInterp lam.length 0 (packInterp lam [])).2 = lam := by
    simp [unpackInterp, pySlice, packInterp, sliceBound]
  rw [this]
  exact h

/-- **C55** in use: on a packed state, the flat adjoint dynamics evaluate the field, the products and the gradient of the
integral loss at the unpacked parts, and the packed result has the parts in the same order. The `params` entries are those
autograd returns, with one zero for an unused parameter of one element; a field that does not depend on time gives a zero
time derivative. What happens when the state is not used is C129. -/
theorem C55_dynamics {K : Type} [Zero α] [Sub α] (neg : List α → List α) (vf : K → List α → List α)
    (vjp : K → List α → List α → Except PyErr (VjpResult α)) (lossGrad : Option (K → List α → List α)) (t : K) (x lam mu : List α)
    (lamT : α) (g : VjpResult α) (gx : List α) (v : List (List α)) (d : α) (hg : vjp t x (neg lam) = .ok g) (hx : g.x = some gx)
    (hne : g.params ≠ []) (hv : List.Forall₂ (fun p u => p = some u ∨ p = none ∧ u = [0]) g.params v)
    (hd : g.t = some d ∨ g.t = none ∧ d = 0) :
    adjointDynamicsFlat neg vf vjp (lossGrad.map fun dg t x => .ok (some (dg t x))) x.length lam.length mu.length t
        (packAdjoint x lam mu lamT) =
      .ok (packAdjoint (vf t x) ((lossGrad.map fun dg => List.zipWith (· - ·) gx (dg t x)).getD gx) v.flatten d) := by
  unfold adjointDynamicsFlat
  rw [C55_unpack_pack]
  obtain ⟨gx', gt, ps⟩ := g
  have hm : (ps.map fun p => match p with | some v => v | none => [0]) = v := by
    clear hd
    simp only at hv
    clear hne hg hx
    induction hv with
    | nil => rfl
    | cons h _ ih =>
      rw [List.map_cons, ih]
      rcases h with rfl | ⟨rfl, rfl⟩ <;> rfl
  have hc : catParams ps = .ok v.flatten := by
    have : ps.isEmpty = false := by simpa using hne
    rw [catParams, this, ← hm]
    rfl
  simp only at hx hd
  subst hx
  simp only [hg, bind, Except.bind, pure, Except.pure]
  unfold packAdjoint
  rcases hd with hd | ⟨hd, rfl⟩ <;> cases lossGrad <;> subst hd <;>
    simp only [subtractLoss, Option.map_none, Option.map_some, Option.getD_none, Option.getD_some, bind, Except.bind, pure,
      Except.pure, hc]

/-- Beyond C55: a parameter with more than one entry that the field does not use contributes one zero instead of as
many as it has entries, so the derivative of the packed state is narrower than the packed state. -/
theorem C55_unused_parameter_refuted {K : Type} [Zero α] [Sub α] (neg : List α → List α)
    (vf : K → List α → List α) (vjp : K → List α → List α → Except PyErr (VjpResult α)) (t : K) (x lam mu : List α) (lamT : α)
    (g : VjpResult α) (gx : List α) (hg : vjp t x (neg lam) = .ok g) (hgx : g.x = some gx)
    (hx : (vf t x).length = x.length) (hl : gx.length = lam.length) (hp : g.params = [none]) (hmu : 2 ≤ mu.length) :
    ∃ r, adjointDynamicsFlat neg vf vjp none x.length lam.length mu.length t (packAdjoint x lam mu lamT) = .ok r ∧
      r.length < (packAdjoint x lam mu lamT).length := by
  refine ⟨_, C55_dynamics neg vf vjp none t x lam mu lamT g gx [[0]] (g.t.getD 0) hg hgx (by simp [hp]) (by simp [hp])
    (by cases g.t <;> simp), ?_⟩
  simp only [packAdjoint, List.length_append, List.length_cons, List.length_nil, List.flatten_cons, List.flatten_nil,
    List.append_nil, hx, hl, Option.map_none, Option.getD_none]
  omega

example : unpackAdjoint 2 2 3 (packAdjoint [1, 2] [3, 4] [5, 6, 7] (8 : ℚ)) = ([1, 2], [3, 4], [5, 6, 7], [8]) := by
  decide +kernel

end packing

/-! ### C56 -/

section adjoint

variable {K X L M A : Type} [Field K] [LinearOrder K] [IsStrictOrderedRing K] [AddCommGroup X] [Module K X]
  [AddCommGroup L] [Module K L] [AddCommGroup M] [Module K M]

/-- A solver class that moves every component `π` of the state on which the field is an operator `B` by the Taylor
polynomial of degree `p` of `exp (h B)`. -/
def TaylorSolver (p : ℕ) (S : SolverFamily (Except PyErr) K A) : Prop :=
  ∀ (V W : Type) [AddCommGroup V] [Module K V] [AddCommGroup W] [Module K W] (π : V →ₗ[K] W) (B : W →ₗ[K] W)
    (f : K → V → V), (∀ t v, π (f t v) = B (π v)) → ∀ args : A,
    ∃ φ, SteppedBy (S V) f args φ ∧ ∀ v t h, π (φ v t h) = expTaylor p B h (π v)

theorem euler_taylorSolver :
    TaylorSolver 1 (fun W _ _ => eulerSolver (Except PyErr) K W A : SolverFamily (Except PyErr) K A) := by
  intro V W _ _ _ _ π B f hf args
  refine ⟨_, euler_steppedBy f args, ?_⟩
  intro v t h
  simp only [map_add, map_smul, hf]
  simp [expTaylor, Finset.sum_range_succ]

theorem midpoint_taylorSolver :
    TaylorSolver 2 (fun W _ _ => midpointSolver (Except PyErr) K W A : SolverFamily (Except PyErr) K A) := by
  intro V W _ _ _ _ π B f hf args
  refine ⟨_, midpoint_steppedBy f args, ?_⟩
  intro v t h
  simp only [map_add, map_smul, hf]
  simp only [expTaylor, Finset.sum_range_succ, Finset.sum_range_zero, pow_succ, pow_zero, Module.End.mul_apply,
    Module.End.one_apply, Nat.factorial]
  push_cast
  module

theorem rk4_taylorSolver :
    TaylorSolver 4 (fun W _ _ => rk4Solver (Except PyErr) K W A : SolverFamily (Except PyErr) K A) := by
  intro V W _ _ _ _ π B f hf args
  refine ⟨_, rk4_steppedBy f args, ?_⟩
  intro v t h
  have e : π (rk4Update f v t h) =
      (rk4Step (m := Id) (constructRk4 K) (pureField (fun _ y => B y)) (π v) t h none ()).newState := by
    simp only [rk4Update, rk4Step, firstStage, pureField, bind, pure, StepOut.newState, map_add, map_smul, hf]
  rw [e]
  simp only [expTaylor, Finset.sum_range_succ, Finset.sum_range_zero, pow_succ, pow_zero, Module.End.mul_apply,
    Module.End.one_apply, Nat.factorial]
  unfold_step
  simp only [map_add, map_smul]
  push_cast
  module

theorem expTaylor_adjoint (pair : L →ₗ[K] X →ₗ[K] K) (B : X →ₗ[K] X) (Bt : L →ₗ[K] L)
    (h : ∀ l x, pair (Bt l) x = pair l (B x)) (p : ℕ) (s : K) (l : L) (x : X) :
    pair (expTaylor p Bt s l) x = pair l (expTaylor p B s x) := by
  have hk : ∀ (k : ℕ) (l : L) (x : X), pair ((Bt ^ k) l) x = pair l ((B ^ k) x) := by
    intro k
    induction k with
    | zero => intros; rfl
    | succ k ih =>
      intro l x
      rw [pow_succ', Module.End.mul_apply, h, ih, ← Module.End.mul_apply, ← pow_succ]
  simp only [expTaylor, map_sum, map_smul, LinearMap.sum_apply, LinearMap.smul_apply, hk]

/-- The cotangent of the initial state obtained by pulling the cotangents back along the grid. -/
def backCot (p : ℕ) (Bt : L →ₗ[K] L) : List K → List L → L
  | t :: t' :: ts, g :: gs => expTaylor p Bt (t' - t) (backCot p Bt (t' :: ts) gs) + g
  | _, g :: _ => g
  | _, [] => 0

theorem backCot_spec (pair : L →ₗ[K] X →ₗ[K] K) (B : X →ₗ[K] X) (Bt : L →ₗ[K] L)
    (h : ∀ l x, pair (Bt l) x = pair l (B x)) (p : ℕ) : ∀ (ts : List K) (gs : List L) (x : X), ts ≠ [] →
    gs.length = ts.length →
    pair (backCot p Bt ts gs) x =
      (List.zipWith (fun g y => pair g y) gs (gridStates (fun y _ s => expTaylor p B s y) x ts)).sum := by
  intro ts
  induction ts with
  | nil => intro gs x h; exact absurd rfl h
  | cons t ts ih =>
    intro gs x _ hlen
    cases gs with
    | nil => simp at hlen
    | cons g gs =>
      cases ts with
      | nil =>
        have : gs = [] := by simpa using hlen
        subst this
        simp [backCot, gridStates]
      | cons t' ts =>
        have := ih gs (expTaylor p B (t' - t) x) (by simp) (by simpa using hlen)
        simp only [backCot, gridStates, List.zipWith_cons_cons, List.sum_cons, map_add, LinearMap.add_apply,
          expTaylor_adjoint pair B Bt h, this]
        rw [add_comm]

/-- The adjoint field of `x' = B x`: vector-Jacobian products are products with the transpose `Bt`. -/
def linearAdjoint (pair : L →ₗ[K] X →ₗ[K] K) (B : X →ₗ[K] X) (Bt : L →ₗ[K] L) (vjpP : K → X → L → M)
    (vjpT : K → X → L → K) : AdjointField K X L M where
  vf _ x := B x
  vjpX _ _ l := Bt l
  vjpP := vjpP
  vjpT := vjpT
  pair l x := pair l x
  lossGrad := none

/-- The solve of the backward pass with a fixed-step solver class. -/
def adjointSolve (S : SolverFamily (Except PyErr) K A) (args : A)
    (f : K → AdjState X L M K → Except PyErr (AdjState X L M K)) (a : AdjState X L M K) (ts : List K) :
    Except PyErr (List K × List (AdjState X L M K)) :=
  odeintFixed f a ts (S (AdjState X L M K)) [] args

theorem adjointSolve_interval {p : ℕ} {S : SolverFamily (Except PyErr) K A} (hS : TaylorSolver p S) (args : A)
    (pair : L →ₗ[K] X →ₗ[K] K) (B : X →ₗ[K] X) (Bt : L →ₗ[K] L) (vjpP : K → X → L → M) (vjpT : K → X → L → K)
    (a : AdjState X L M K) (tHi tLo : K) (hlt : tLo < tHi) (hsep : Separated [tHi, tLo]) :
    ∃ ts a', adjointSolve S args (fun t A => pure (adjointDynamics (linearAdjoint pair B Bt vjpP vjpT) t A)) a
        [tHi, tLo] = .ok (ts, [a, a']) ∧ a'.2.1 = expTaylor p Bt (tHi - tLo) a.2.1 := by
  let dyn := adjointDynamics (linearAdjoint pair B Bt vjpP vjpT)
  let π : AdjState X L M K →ₗ[K] L := (LinearMap.fst K L (M × K)).comp (LinearMap.snd K X (L × M × K))
  obtain ⟨φ, hφ, hπ⟩ := hS _ _ π Bt (fun t A => -dyn (-t) A) (by
    intro t A
    simp only [map_neg]
    simp [π, dyn, adjointDynamics, linearAdjoint]) args
  have hsep' : Separated [-tHi, -tLo] := by
    have := (separated_neg [tHi, tLo]).2 hsep
    simpa using this
  refine ⟨[-tHi, -tLo], φ a (-tHi) (-tLo - -tHi), ?_, ?_⟩
  · unfold adjointSolve
    change odeintFixed (pureField dyn) a [tHi, tLo] _ [] args = _
    rw [odeintFixed_backward _ _ _ hlt]
    change fixedOdeint _ _ _ [-tHi, -tLo] _ = _
    rw [fixedOdeint_default _ (pure ()) φ hφ.tick a _ (by simp) hsep', tickN_pure]
    rfl
  · have := hπ a (-tHi) (-tLo - -tHi)
    rw [show -tLo - -tHi = tHi - tLo by ring] at this ⊢
    exact this

theorem adjointLoop_linear {p : ℕ} {S : SolverFamily (Except PyErr) K A} (hS : TaylorSolver p S) (args : A)
    (pair : L →ₗ[K] X →ₗ[K] K) (B : X →ₗ[K] X) (Bt : L →ₗ[K] L) (vjpP : K → X → L → M) (vjpT : K → X → L → K)
    (ts : List K) (hinc : ts.Pairwise (· < ·)) (hsep : Separated ts) (gs : List L) (gt : List K)
    (hg : gs.length = ts.length) (hgt : gt.length = ts.length) :
    ∀ (i : ℕ) (a : AdjState X L M K) (d : K), i < ts.length →
      a.2.1 = backCot p Bt (ts.drop i) (gs.drop i) →
      ∃ a' d', adjointLoop (adjointSolve S args) (linearAdjoint pair B Bt vjpP vjpT) ts gt gs i a d = .ok (a', d') ∧
        a'.2.1 = backCot p Bt ts gs := by
  intro i
  induction i with
  | zero =>
    intro a d _ ha
    exact ⟨a, d, rfl, by simpa using ha⟩
  | succ i ih =>
    intro a d hi ha
    have hi' : i < ts.length := by omega
    have hlt : ts[i] < ts[i + 1] := List.pairwise_iff_getElem.1 hinc i (i + 1) hi' hi (by omega)
    have hsep2 : Separated [ts[i + 1], ts[i]] := by
      have := List.pairwise_iff_getElem.1 hsep i (i + 1) hi' hi (by omega)
      refine List.Pairwise.cons ?_ (List.pairwise_singleton _ _)
      intro b hb
      rw [List.mem_singleton] at hb
      subst hb
      exact ⟨this.2, this.1⟩
    obtain ⟨tr, a', hsolve, ha'⟩ := adjointSolve_interval hS args pair B Bt vjpP vjpT a _ _ hlt hsep2
    have hgi : i < gs.length := by omega
    have hgti : i < gt.length := by omega
    obtain ⟨a'', d'', hloop, hres⟩ := ih (a'.1, a'.2.1 + gs[i], a'.2.2.1, a'.2.2.2 - gt[i])
      (pair a'.2.1 (B a'.1)) hi' (by
        simp only
        rw [ha', ha, List.drop_eq_getElem_cons hi', List.drop_eq_getElem_cons hi, List.drop_eq_getElem_cons hgi]
        rfl)
    refine ⟨a'', d'', ?_, hres⟩
    rw [adjointLoop]
    simp only [bind, Except.bind, pure, Except.pure, getItem, List.getElem?_eq_getElem hi',
      List.getElem?_eq_getElem hi, List.getElem?_eq_getElem hgi, List.getElem?_eq_getElem hgti] at *
    rw [hsolve]
    exact hloop

/-- **C56.** For `x' = B x` solved with a fixed-step solver on an increasing grid, and any cotangents on all output
points, the backward pass with the same solver returns a cotangent `λ` of the initial state such that, for every other
initial state, the change of `∑ ⟨g_i, x_i⟩` over the computed solutions is exactly `⟨λ, y0 - x0⟩`: the exact gradient of
the discrete solution. `Bt` is the transpose of `B` under the pairing. -/
theorem C56_linear_gradient {p : ℕ} {S : SolverFamily (Except PyErr) K A} (hS : TaylorSolver p S) (args : A)
    (pair : L →ₗ[K] X →ₗ[K] K) (B : X →ₗ[K] X) (Bt : L →ₗ[K] L) (hadj : ∀ l x, pair (Bt l) x = pair l (B x))
    (vjpP : K → X → L → M) (vjpT : K → X → L → K) (x0 : X) (t0 t1 : K) (rest : List K)
    (hinc : (t0 :: t1 :: rest).Pairwise (· < ·)) (hsep : Separated (t0 :: t1 :: rest)) (gs : List L) (gt : List K)
    (hg : gs.length = (t0 :: t1 :: rest).length) (hgt : gt.length = (t0 :: t1 :: rest).length) :
    ∃ sol, odeintFixed (pureField (fun _ x => B x)) x0 (t0 :: t1 :: rest) (S X) [] args = .ok (t0 :: t1 :: rest, sol) ∧
    ∃ μ lam d d', adjointBackward (adjointSolve S args) (linearAdjoint pair B Bt vjpP vjpT) (t0 :: t1 :: rest) sol gt gs =
        .ok (μ, lam, d, d') ∧
    ∀ y0, ∃ solY, odeintFixed (pureField (fun _ x => B x)) y0 (t0 :: t1 :: rest) (S X) [] args =
        .ok (t0 :: t1 :: rest, solY) ∧
      (List.zipWith (fun g y => pair g y) gs solY).sum - (List.zipWith (fun g y => pair g y) gs sol).sum =
        pair lam (y0 - x0) := by
  obtain ⟨φ, hφ, hπ⟩ := hS X X LinearMap.id B (fun _ x => B x) (fun _ _ => rfl) args
  have hle : t0 ≤ t1 := by
    have := (List.pairwise_cons.1 hinc).1 t1 (by simp)
    exact this.le
  have hφe : φ = fun y _ s => expTaylor p B s y := by
    funext y t s
    exact hπ y t s
  have hrun : ∀ y : X, odeintFixed (pureField (fun _ x => B x)) y (t0 :: t1 :: rest) (S X) [] args =
      .ok (t0 :: t1 :: rest, gridStates (fun y _ s => expTaylor p B s y) y (t0 :: t1 :: rest)) := by
    intro y
    rw [odeintFixed_forward _ _ _ hle, fixedOdeint_default _ (pure ()) φ hφ.tick y _ (by simp) hsep, tickN_pure, hφe]
    rfl
  refine ⟨_, hrun x0, ?_⟩
  have hsl := gridStates_length (fun y _ s => expTaylor p B s y) x0 (t0 :: t1 :: rest)
  set ts := t0 :: t1 :: rest with hts
  set sol := gridStates (fun y _ s => expTaylor p B s y) x0 ts with hsol
  have hpos : 0 < ts.length := by simp [hts]
  have hsne : sol ≠ [] := by rw [← List.length_pos_iff, hsl]; exact hpos
  have hgne : gs ≠ [] := by rw [← List.length_pos_iff, hg]; exact hpos
  have htne : ts ≠ [] := by simp [hts]
  obtain ⟨a', d', hloop, hres⟩ := adjointLoop_linear hS args pair B Bt vjpP vjpT ts hinc hsep gs gt hg hgt
    (ts.length - 1) (sol.getLast hsne, gs.getLast hgne, 0, pair (gs.getLast hgne) (B (sol.getLast hsne)))
    (pair (gs.getLast hgne) (B (sol.getLast hsne))) (by omega) (by
      have e1 : ts.drop (ts.length - 1) = [ts.getLast htne] := List.drop_length_sub_one htne
      have e2 : gs.drop (ts.length - 1) = [gs.getLast hgne] := by rw [← hg]; exact List.drop_length_sub_one hgne
      rw [e1, e2]
      rfl)
  refine ⟨a'.2.2.1, a'.2.1, d', pair (gs.getLast hgne) (B (sol.getLast hsne)), ?_, ?_⟩
  · unfold adjointBackward
    simp only [getLastItem, List.getLast?_eq_some_getLast hsne, List.getLast?_eq_some_getLast hgne,
      List.getLast?_eq_some_getLast htne, pure_bind]
    change (adjointLoop (adjointSolve S args) (linearAdjoint pair B Bt vjpP vjpT) ts gt gs (ts.length - 1)
      (sol.getLast hsne, gs.getLast hgne, 0, pair (gs.getLast hgne) (B (sol.getLast hsne)))
      (pair (gs.getLast hgne) (B (sol.getLast hsne))) >>= _) = _
    rw [hloop]
    rfl
  · intro y0
    refine ⟨_, hrun y0, ?_⟩
    rw [hres, map_sub, backCot_spec pair B Bt hadj p ts gs y0 htne hg,
      backCot_spec pair B Bt hadj p ts gs x0 htne hg]

/-- **C56** as stated, for `euler`. -/
theorem C56_euler (args : A) (pair : L →ₗ[K] X →ₗ[K] K) (B : X →ₗ[K] X) (Bt : L →ₗ[K] L)
    (hadj : ∀ l x, pair (Bt l) x = pair l (B x)) (vjpP : K → X → L → M) (vjpT : K → X → L → K) (x0 : X) (t0 t1 : K)
    (rest : List K) (hinc : (t0 :: t1 :: rest).Pairwise (· < ·)) (hsep : Separated (t0 :: t1 :: rest)) (gs : List L)
    (gt : List K) (hg : gs.length = (t0 :: t1 :: rest).length) (hgt : gt.length = (t0 :: t1 :: rest).length) :
    ∃ sol, odeintFixed (pureField (fun _ x => B x)) x0 (t0 :: t1 :: rest) (eulerSolver (Except PyErr) K X A) [] args =
        .ok (t0 :: t1 :: rest, sol) ∧
    ∃ μ lam d d', adjointBackward (adjointSolve (fun W _ _ => eulerSolver (Except PyErr) K W A) args)
        (linearAdjoint pair B Bt vjpP vjpT) (t0 :: t1 :: rest) sol gt gs = .ok (μ, lam, d, d') ∧
    ∀ y0, ∃ solY, odeintFixed (pureField (fun _ x => B x)) y0 (t0 :: t1 :: rest) (eulerSolver (Except PyErr) K X A) []
        args = .ok (t0 :: t1 :: rest, solY) ∧
      (List.zipWith (fun g y => pair g y) gs solY).sum - (List.zipWith (fun g y => pair g y) gs sol).sum =
        pair lam (y0 - x0) :=
  C56_linear_gradient euler_taylorSolver args pair B Bt hadj vjpP vjpT x0 t0 t1 rest hinc hsep gs gt hg hgt

end adjoint

/-- The scalar field `x' = x` with the ordinary product as pairing. -/
def scalarAdjoint : AdjointField ℚ ℚ ℚ ℚ where
  vf _ x := x
  vjpX _ _ l := l
  vjpP _ _ _ := 0
  vjpT _ _ _ := 0
  pair l x := l * x
  lossGrad := none

/-- The scalar backward pass with `euler`. -/
def scalarBackward (F : AdjointField ℚ ℚ ℚ ℚ) (ts sol gt gs : List ℚ) : Except PyErr (ℚ × ℚ × ℚ × ℚ) :=
  adjointBackward (fun f a ts => odeintFixed f a ts (eulerSolver (Except PyErr) ℚ (AdjState ℚ ℚ ℚ ℚ) Unit) [] ()) F ts
    sol gt gs

/-- **C56 is false** for decreasing grids: the times returned by the forward pass are negated (see C17), and the
backward pass integrates the field itself over them. For `x' = x` from time `1` to `0` with one `euler` step the final
state is `x0 - x0 = 0`, so the gradient of the final state is `0`; the backward pass returns `2`. -/
theorem C56_decreasing_refuted :
    (∀ x0 : ℚ, ∀ r, odeintFixed (pureField (fun _ x => x)) x0 [1, 0] (eulerSolver (Except PyErr) ℚ ℚ Unit) [] () =
      .ok r → r.2 = [x0, 0]) ∧
    odeintFixed (pureField (fun _ x => x)) 1 [1, 0] (eulerSolver (Except PyErr) ℚ ℚ Unit) [] () =
      .ok ([-1, 0], [1, 0]) ∧
    scalarBackward scalarAdjoint [-1, 0] [1, 0] [0, 0] [0, 1] = .ok (0, 2, 0, 0) := by
  refine ⟨?_, by decide +kernel, by decide +kernel⟩
  intro x0 r hr
  rw [odeintFixed_backward _ _ _ (by norm_num)] at hr
  have hsep : Separated (([1, 0] : List ℚ).map (fun t => -t)) := by
    rw [separated_neg]
    norm_num [Separated, Close]
  rw [fixedOdeint_default _ (pure ()) _ (euler_steppedBy (fun t x : ℚ => -(x)) ()).tick x0 _ (by simp) hsep,
    tickN_pure] at hr
  cases hr
  simp [gridStates]

/-- The hypotheses of C56 are met: a rotation on `ℚ × ℚ` with the dot product, a non-uniform grid, cotangents on all
three points. -/
example : ∃ (pair : (ℚ × ℚ) →ₗ[ℚ] (ℚ × ℚ) →ₗ[ℚ] ℚ) (B Bt : (ℚ × ℚ) →ₗ[ℚ] (ℚ × ℚ)),
    (∀ l x, pair (Bt l) x = pair l (B x)) ∧ B (1, 2) = (2, -1) ∧ pair (1, 2) (3, 4) = 11 ∧
    ([0, 1, 3] : List ℚ).Pairwise (· < ·) ∧ Separated ([0, 1, 3] : List ℚ) := by
  let B : (ℚ × ℚ) →ₗ[ℚ] (ℚ × ℚ) := (LinearMap.snd ℚ ℚ ℚ).prod (-(LinearMap.fst ℚ ℚ ℚ))
  let pair : (ℚ × ℚ) →ₗ[ℚ] (ℚ × ℚ) →ₗ[ℚ] ℚ := LinearMap.mk₂ ℚ (fun l x => l.1 * x.1 + l.2 * x.2)
    (fun a b c => by simp; ring) (fun a b c => by simp; ring) (fun a b c => by simp; ring)
    (fun a b c => by simp; ring)
  refine ⟨pair, B, -B, ?_, ?_, ?_, by norm_num, by norm_num [Separated, Close]⟩
  · intro l x
    simp [pair, B]
    ring
  · simp [B]
  · simp [pair]
    norm_num

/-! ### C74 -/

/-- **C74**, the end time: the last entry of the gradient with respect to `t_span` is `⟨g_T, f(T, x_T)⟩`, the rate at
which the loss changes when the exact solution is continued beyond `T`. -/
theorem C74_end_time_partial {K X L M : Type} [Field K] [AddCommGroup X] [AddCommGroup L] [AddCommGroup M]
    (solve : (K → AdjState X L M K → Except PyErr (AdjState X L M K)) → AdjState X L M K → List K →
      Except PyErr (List K × List (AdjState X L M K)))
    (F : AdjointField K X L M) (ts : List K) (sol : List X) (gt : List K) (gs : List L) (μ : M) (lam : L) (d d' : K)
    (h : adjointBackward solve F ts sol gt gs = .ok (μ, lam, d, d')) :
    ∃ T xT gT, ts.getLast? = some T ∧ sol.getLast? = some xT ∧ gs.getLast? = some gT ∧
      d' = F.pair gT (F.vf T xT) := by
  unfold adjointBackward getLastItem at h
  cases h1 : sol.getLast? with
  | none => simp [h1, bind, Except.bind, throw, throwThe, MonadExceptOf.throw] at h
  | some xT =>
    cases h2 : gs.getLast? with
    | none => simp [h1, h2, bind, Except.bind, throw, throwThe, MonadExceptOf.throw, pure, Except.pure] at h
    | some gT =>
      cases h3 : ts.getLast? with
      | none => simp [h1, h2, h3, bind, Except.bind, throw, throwThe, MonadExceptOf.throw, pure, Except.pure] at h
      | some T =>
        refine ⟨T, xT, gT, rfl, rfl, rfl, ?_⟩
        simp only [h1, h2, h3, bind, Except.bind, pure, Except.pure] at h
        split at h
        · cases h
        · cases h
          rfl

/-- The constant field `x' = 1`. -/
def constAdjoint : AdjointField ℚ ℚ ℚ ℚ where
  vf _ _ := 1
  vjpX _ _ _ := 0
  vjpP _ _ _ := 0
  vjpT _ _ _ := 0
  pair l x := l * x
  lossGrad := none

/-- **C74 is false** for the initial time: for `x' = 1` the computed final state is `x0 + (t1 - t0)` for every grid
`[t0, t1]`, so its derivative with respect to `t0` is `-1`; the backward pass returns `+1`. -/
theorem C74_start_time_refuted :
    (∀ x0 t0 t1 : ℚ, t0 < t1 → Separated [t0, t1] →
      odeintFixed (pureField (fun _ _ => 1)) x0 [t0, t1] (eulerSolver (Except PyErr) ℚ ℚ Unit) [] () =
        .ok ([t0, t1], [x0, x0 + (t1 - t0)])) ∧
    scalarBackward constAdjoint [0, 1] [5, 6] [0, 0] [0, 1] = .ok (0, 1, 1, 1) := by
  refine ⟨?_, by decide +kernel⟩
  intro x0 t0 t1 hlt hsep
  rw [odeintFixed_forward _ _ _ hlt.le,
    fixedOdeint_default _ (pure ()) _ (euler_steppedBy (fun _ _ : ℚ => (1 : ℚ)) ()).tick x0 _ (by simp) hsep, tickN_pure]
  simp [gridStates, bind, Except.bind, pure, Except.pure]

/-! ### C57 -/

section saveAt

variable {ι : Type} [Fintype ι] {A : Type}

/-- **C57**, what holds: under `autograd`, `ODEProblem` with a fixed-step solver returns exactly what `odeint` does with
that `save_at` (`C13_save_at`: the states at `save_at`). -/
theorem C57_autograd_partial (fuel : Nat) (f : ℝ → (ι → ℝ) → Except PyErr (ι → ℝ)) (x : ι → ℝ) (tSpan : List ℝ)
    (solver : Solver (Except PyErr) ℝ (ι → ℝ) A) (hfix : solver.adaptive = false) (atol rtol : ℝ) (useInterp : Bool)
    (saveAt : List ℝ) (args : A) (isEmpty : A → Bool) (empty : A) :
    odeProblemOdeint fuel "autograd" f x tSpan solver atol rtol useInterp saveAt args isEmpty empty =
      (odeintFixed f x tSpan solver saveAt args).map some := by
  unfold odeProblemOdeint odeint odeintFixed
  simp only [if_true, hfix, bind, Except.bind, pure, Except.pure, Except.map]
  cases odeintDirection f tSpan with
  | error e => rfl
  | ok v => cases fixedOdeint torchIsclose (fun x t dt => solver.step v.1 x t dt none args) x v.2 saveAt <;> rfl

/-- **C57 is false** under both adjoint methods: the result does not depend on `save_at` at all, for every solver, field
and grid; it is the result of integrating without `save_at` and without the user's `args`. -/
theorem C57_adjoint_refuted (fuel : Nat) (s : String) (hs : s = "adjoint" ∨ s = "interpolated_adjoint")
    (f : ℝ → (ι → ℝ) → Except PyErr (ι → ℝ)) (x : ι → ℝ) (tSpan : List ℝ)
    (solver : Solver (Except PyErr) ℝ (ι → ℝ) A) (atol rtol : ℝ) (useInterp : Bool) (saveAt : List ℝ) (args : A)
    (isEmpty : A → Bool) (empty : A) (he : isEmpty args = true) :
    odeProblemOdeint fuel s f x tSpan solver atol rtol useInterp saveAt args isEmpty empty =
      odeint fuel f x tSpan solver atol rtol useInterp (decide (s = "interpolated_adjoint")) [] empty Finset.univ := by
  rcases hs with rfl | rfl <;> simp [odeProblemOdeint, genericOdeint, he]

/-- **C57**: with non-empty `args` and a fixed-step solver the adjoint methods raise `RuntimeError` — the dictionary is
taken for `save_at` — on every grid with two points. -/
theorem C57_args_refuted (fuel : Nat) (s : String) (hs : s = "adjoint" ∨ s = "interpolated_adjoint")
    (f : ℝ → (ι → ℝ) → Except PyErr (ι → ℝ)) (x : ι → ℝ) (t0 t1 : ℝ) (rest : List ℝ)
    (solver : Solver (Except PyErr) ℝ (ι → ℝ) A) (hfix : solver.adaptive = false) (atol rtol : ℝ) (useInterp : Bool)
    (saveAt : List ℝ) (args : A) (isEmpty : A → Bool) (empty : A) (he : isEmpty args = false) :
    odeProblemOdeint fuel s f x (t0 :: t1 :: rest) solver atol rtol useInterp saveAt args isEmpty empty =
      .error .runtimeError := by
  have hd : ∃ v, odeintDirection f (t0 :: t1 :: rest) = Except.ok v := by
    unfold odeintDirection
    simp only [getItem, List.getElem?_cons_succ, List.getElem?_cons_zero, pure_bind]
    split <;> exact ⟨_, rfl⟩
  obtain ⟨v, hv⟩ := hd
  rcases hs with rfl | rfl <;>
    simp [odeProblemOdeint, genericOdeint, he, hfix, hv, bind, Except.bind, throw, throwThe, MonadExceptOf.throw]

/-- **C57**: a sensitivity with another name raises `TypeError`. -/
theorem C57_unknown_sensitivity (fuel : Nat) (s : String) (h1 : s ≠ "autograd") (h2 : s ≠ "adjoint")
    (h3 : s ≠ "interpolated_adjoint") (f : ℝ → (ι → ℝ) → Except PyErr (ι → ℝ)) (x : ι → ℝ) (tSpan : List ℝ)
    (solver : Solver (Except PyErr) ℝ (ι → ℝ) A) (atol rtol : ℝ) (useInterp : Bool) (saveAt : List ℝ) (args : A)
    (isEmpty : A → Bool) (empty : A) :
    odeProblemOdeint fuel s f x tSpan solver atol rtol useInterp saveAt args isEmpty empty = .error .typeError := by
  simp [odeProblemOdeint, h1, h2, h3, throw, throwThe, MonadExceptOf.throw]

end saveAt

/-- **C57**, concretely: one `euler` step of `x' = 1` with `save_at = [1]`; `autograd` returns the state at `1` alone. The
adjoint methods return, by `C57_adjoint_refuted`, the run without `save_at`, which has both states. -/
example :
    odeintFixed (pureField (fun _ _ => 1)) 5 [0, 1] (eulerSolver (Except PyErr) ℚ ℚ Unit) [1] () = .ok ([1], [6]) ∧
    odeintFixed (pureField (fun _ _ => 1)) 5 [0, 1] (eulerSolver (Except PyErr) ℚ ℚ Unit) [] () =
      .ok ([0, 1], [5, 6]) := by decide +kernel

/-! ### C58 -/

/-- **C58**, what holds: under `autograd` the parallel solver is run with the user's name, `fine_steps` and `maxiter`;
unknown names raise `KeyError`. -/
theorem C58_autograd_partial {R : Type} (run : MSSolverClass → Nat → Nat → Except PyErr R) (solver : String)
    (maxiter fineSteps : Nat) :
    (MsProblem.make solver "autograd" maxiter fineSteps).odeint run =
      (strToMsSolver solver).bind (fun cls => run cls fineSteps maxiter) := by
  simp only [MsProblem.odeint, MsProblem.make, MsProblem.call, if_true, odeintMshooting]
  cases strToMsSolver solver <;> rfl

/-- **C58 is false** under both adjoint methods: whatever the solver and the settings, the call raises `AttributeError`,
because the constructor passes `solver=None` to the base class and the adjoint path uses that attribute. -/
theorem C58_adjoint_refuted {R : Type} (run : MSSolverClass → Nat → Nat → Except PyErr R) (solver s : String)
    (hs : s = "adjoint" ∨ s = "interpolated_adjoint") (maxiter fineSteps : Nat) :
    (MsProblem.make solver s maxiter fineSteps).odeint run = .error .attributeError := by
  rcases hs with rfl | rfl <;> rfl

/-- **C58 is false** under the adjoint methods even with the attribute set by hand: `fine_steps` and `maxiter` arrive
exchanged. -/
theorem C58_swapped_refuted {R : Type} (run : MSSolverClass → Nat → Nat → Except PyErr R) (s name : String)
    (hs : s = "adjoint" ∨ s = "interpolated_adjoint") (p : MsProblem) (hp : p.sensalg = s) (hsol : p.solver = some name) :
    p.odeint run = (strToMsSolver name).bind (fun cls => run cls p.maxiter p.fineSteps) := by
  have hne : p.sensalg ≠ "autograd" := by rcases hs with rfl | rfl <;> rw [hp] <;> decide
  have hor : p.sensalg = "adjoint" ∨ p.sensalg = "interpolated_adjoint" := by rw [hp]; exact hs
  simp only [MsProblem.odeint, MsProblem.call, if_neg hne, if_pos hor, gatherMsCall, odeintMshooting, hsol]
  cases strToMsSolver name <;> rfl

/-- The three results side by side for `maxiter = 7`, `fine_steps = 3`. -/
example :
    (MsProblem.make "zero" "autograd" 7 3).odeint (fun c f k => (.ok (c, f, k) : Except PyErr _)) =
      .ok (.msZero, 3, 7) ∧
    (MsProblem.make "zero" "adjoint" 7 3).odeint (fun c f k => (.ok (c, f, k) : Except PyErr _)) =
      .error .attributeError ∧
    (MsProblem.mk "adjoint" (some "zero") "zero" 3 7).odeint (fun c f k => (.ok (c, f, k) : Except PyErr _)) =
      .ok (.msZero, 7, 3) := by decide +kernel

/-! ### C75 -/

/-- **C75**, what holds: with no `save_at` and no `args`, `adjoint` returns exactly what `autograd` does, for every solver
and grid, errors included. -/
theorem C75_adjoint_partial {ι A : Type} [Fintype ι] (fuel : Nat) (f : ℝ → (ι → ℝ) → Except PyErr (ι → ℝ)) (x : ι → ℝ)
    (tSpan : List ℝ) (solver : Solver (Except PyErr) ℝ (ι → ℝ) A) (atol rtol : ℝ) (useInterp : Bool)
    (isEmpty : A → Bool) (empty : A) (he : isEmpty empty = true) :
    odeProblemOdeint fuel "adjoint" f x tSpan solver atol rtol useInterp [] empty isEmpty empty =
      odeProblemOdeint fuel "autograd" f x tSpan solver atol rtol useInterp [] empty isEmpty empty := by
  simp [odeProblemOdeint, genericOdeint, he]

/-- **C75**, what holds: so does `interpolated_adjoint` with fixed-step solvers. -/
theorem C75_interpolated_partial {ι A : Type} [Fintype ι] (fuel : Nat) (f : ℝ → (ι → ℝ) → Except PyErr (ι → ℝ))
    (x : ι → ℝ) (tSpan : List ℝ) (solver : Solver (Except PyErr) ℝ (ι → ℝ) A) (hfix : solver.adaptive = false)
    (atol rtol : ℝ) (useInterp : Bool) (isEmpty : A → Bool) (empty : A) (he : isEmpty empty = true) :
    odeProblemOdeint fuel "interpolated_adjoint" f x tSpan solver atol rtol useInterp [] empty isEmpty empty =
      odeProblemOdeint fuel "autograd" f x tSpan solver atol rtol useInterp [] empty isEmpty empty := by
  simp [odeProblemOdeint, genericOdeint, he, odeint, hfix]

/-- A bounded field with a jump at time `1/2`. -/
noncomputable def jumpField {κ : Type} (t : ℝ) (_ : κ → ℝ) : κ → ℝ := fun _ => if t ≤ 1 / 2 then 0 else 1

theorem jumpField_bounded {κ : Type} (t : ℝ) (x : κ → ℝ) (i : κ) : |jumpField t x i| ≤ 1 := by
  unfold jumpField
  split_ifs <;> simp

/-- One `dopri5` step over `[0, 1]` is not accepted at these tolerances. -/
theorem jumpField_rejected {κ : Type} [Fintype κ] [Unique κ] (p q : Point κ) (hp : p = (0, fun _ => 0)) (hq : q.1 = 1) :
    ¬ AcceptedStep (dopri5Solver (Except PyErr) ℝ (κ → ℝ) Unit) () jumpField Finset.univ (1 / 10000) (1 / 10000)
      p q := by
  rintro ⟨_, k, e, st, hstep, hle⟩
  subst hp
  rw [hq] at hstep
  simp only [dopri5Solver, dopri5Step, rk7Step, firstStage, bind, Except.bind, pure, Except.pure] at hstep
  have hk : ∀ (t : ℝ) (y : κ → ℝ), jumpField t y = fun _ => if t ≤ 1 / 2 then 0 else 1 := fun _ _ => rfl
  simp only [hk, constructDopri5, dopri5Bsol, dopri5Bhat, List.zipWith_cons_cons, List.zipWith_nil_left, nth] at hstep
  norm_num at hstep
  obtain ⟨-, hx, he, -⟩ := hstep
  have hx' := congrFun hx default
  have he' := congrFun he default
  simp only [Pi.add_apply, Pi.smul_apply, smul_eq_mul, Pi.zero_apply] at hx' he'
  norm_num at hx' he'
  unfold errorNorm at hle
  rw [Real.sqrt_le_left zero_le_one] at hle
  simp only [Finset.univ_unique, Finset.sum_singleton, Finset.card_singleton, ← hx', ← he'] at hle
  norm_num at hle

/-- All evaluation points under `interpolated_adjoint`, for any index type with one element. -/
theorem interpolated_adaptive {κ : Type} [Fintype κ] [Unique κ] :
    ∃ fuel ts xs, odeProblemOdeint fuel "interpolated_adjoint" (pureField (jumpField (κ := κ))) (fun _ => 0) [0, 1]
        (dopri5Solver (Except PyErr) ℝ (κ → ℝ) Unit) (1 / 10000) (1 / 10000) false [] () (fun _ => true) () =
        .ok (some (ts, xs)) ∧ 2 < ts.length ∧
    ∃ fuel' xs', odeProblemOdeint fuel' "autograd" (pureField jumpField) (fun _ => 0) [0, 1]
        (dopri5Solver (Except PyErr) ℝ (κ → ℝ) Unit) (1 / 10000) (1 / 10000) false [] () (fun _ => true) () =
        .ok (some ([0, 1], xs')) := by
  have hinc : Increasing ([0, 1] : List ℝ) := by simp [Increasing]
  obtain ⟨fuel, ts, xs, h⟩ := C27_terminates_dopri5 () (jumpField (κ := κ)) 1 jumpField_bounded (fun _ => 0) 0 1 [] hinc
    (1 / 10000) (1 / 10000) (by norm_num) (by norm_num) false true [] Finset.univ
  obtain ⟨fuel', ts', xs', h'⟩ := C27_terminates_dopri5 () (jumpField (κ := κ)) 1 jumpField_bounded (fun _ => 0) 0 1 [] hinc
    (1 / 10000) (1 / 10000) (by norm_num) (by norm_num) false false [] Finset.univ
  refine ⟨fuel, ts, xs, by simpa [odeProblemOdeint, genericOdeint] using h, ?_, fuel', xs', ?_⟩
  · obtain ⟨r, hr, hall⟩ := C23_all_eval (dopri5_fsalSolver ()) (jumpField (κ := κ)) (fun _ => 0) 0 1 [] hinc (1 / 10000)
      (1 / 10000) false [] Finset.univ fuel
    rw [h] at hr
    cases hr
    obtain ⟨_, hh, hl, _, hlen, hx0, _⟩ := hall ts xs rfl
    have hc := C23_all_eval_consecutive (dopri5_fsalSolver ()) (jumpField (κ := κ)) (fun _ => 0) 0 1 [] hinc (1 / 10000)
      (1 / 10000) false (Or.inl rfl) [] Finset.univ fuel ts xs h
    match ts, xs, hh, hl, hlen, hx0, hc with
    | [a], _, hh, hl, _, _, _ =>
      simp at hh hl
      linarith
    | [a, b], [c, d], hh, hl, _, hx0, hc =>
      simp at hh hl hx0
      subst hh hl hx0
      exact absurd (List.isChain_cons_cons.1 hc).1 (jumpField_rejected _ _ rfl rfl)
    | a :: b :: c :: l, _, _, _, _, _, _ => simp
  · obtain ⟨r, hr, hall⟩ := C21_times (dopri5_fsalSolver ()) (jumpField (κ := κ)) (fun _ => 0) 0 1 [] hinc (1 / 10000)
      (1 / 10000) false [] Finset.univ fuel'
    rw [h'] at hr
    cases hr
    have := hall ts' xs' rfl
    have e : ts' = [0, 1] := this.1
    subst e
    simpa [odeProblemOdeint] using h'

/-- **C75 is false** for `interpolated_adjoint` with adaptive solvers: it returns all evaluation times instead of
`t_span`. For a bounded field and `dopri5` on `[0, 1]`, all three sensitivities return, but only the first two return the
times `[0, 1]`. -/
theorem C75_interpolated_adaptive_refuted :
    ∃ fuel ts xs, odeProblemOdeint fuel "interpolated_adjoint" (pureField jumpField) (fun _ => 0) [0, 1]
        (dopri5Solver (Except PyErr) ℝ (Unit → ℝ) Unit) (1 / 10000) (1 / 10000) false [] () (fun _ => true) () =
        .ok (some (ts, xs)) ∧ 2 < ts.length ∧
    ∃ fuel' xs', odeProblemOdeint fuel' "autograd" (pureField jumpField) (fun _ => 0) [0, 1]
        (dopri5Solver (Except PyErr) ℝ (Unit → ℝ) Unit) (1 / 10000) (1 / 10000) false [] () (fun _ => true) () =
        .ok (some ([0, 1], xs')) :=
  interpolated_adaptive

end Torchdyn
