import Verif.Props.Sensitivity

/-!
# Inputs the field does not use (C129)

The derivative of a field with respect to an input it does not use is zero. The specification below is the adjoint equation with
these zeros; the theorems say when the dynamics of the two adjoints agree with it, and what they do otherwise.
-/

set_option linter.unusedSectionVars false
set_option linter.unusedSimpArgs false

namespace Spec

/-- The derivative with respect to the parameters: the product `v` for a parameter which is used, zeros of its size `n` otherwise. -/
def paramDerivative {α : Type} [Zero α] : List Bool → List Nat → List (List α) → List α
  | u :: us, n :: ns, v :: vs => (if u then v else List.replicate n 0) ++ paramDerivative us ns vs
  | _, _, _ => []

/-- The state adjoint: minus the cotangent through the field, zero when the field does not use the state, minus the gradient of the
integral loss. -/
def stateDerivative {α : Type} [Zero α] [Sub α] (used : Bool) (g : List α) (loss : Option (List α)) : List α :=
  let a := if used then g else List.replicate g.length 0
  match loss with
  | none => a
  | some b => List.zipWith (· - ·) a b

/-- The number of unused parameters. -/
def unusedCount (used : List Bool) : Nat := (used.filter (!·)).length

/-- The number of entries of the unused parameters. -/
def unusedEntries : List Bool → List Nat → Nat
  | u :: us, n :: ns => (if u then 0 else n) + unusedEntries us ns
  | _, _ => 0

end Spec

namespace Torchdyn

open Spec

variable {K : Type}

/-! ### The concatenated parameter derivative -/

section cat

variable {α : Type} [Zero α]

theorem catParams_zipWith (us : List Bool) (vs : List (List α)) (hl : us.length = vs.length) (h : vs ≠ []) :
    catParams (List.zipWith (fun used v => if used then some v else none) us vs) =
      .ok (List.zipWith (fun used v => if used then v else [0]) us vs).flatten := by
  have hne : (List.zipWith (fun (used : Bool) v => if used then some v else none) us vs).isEmpty = false := by
    cases us with
    | nil => exact absurd (List.length_eq_zero_iff.mp hl.symm) h
    | cons u us =>
      cases vs with
      | nil => exact absurd rfl h
      | cons v vs => rfl
  rw [catParams, hne, List.map_zipWith]
  simp only [Bool.false_eq_true, if_false]
  congr 3
  funext u v
  cases u <;> rfl

/-- The width of what is concatenated. -/
theorem cat_length (us : List Bool) (ns : List Nat) (vs : List (List α)) (hl : us.length = vs.length)
    (hv : vs.map List.length = ns) :
    (List.zipWith (fun used v => if used then v else [0]) us vs).flatten.length + unusedEntries us ns =
      ns.sum + unusedCount us := by
  subst hv
  induction us generalizing vs with
  | nil =>
    cases vs with
    | nil => simp [unusedEntries, unusedCount]
    | cons v vs => simp at hl
  | cons u us ih =>
    cases vs with
    | nil => simp at hl
    | cons v vs =>
      have := ih vs (by simpa using hl)
      cases u <;> simp [unusedEntries, unusedCount] at this ⊢ <;> omega

theorem unusedEntries_le (us : List Bool) (ns : List Nat) : unusedEntries us ns ≤ ns.sum := by
  induction us generalizing ns with
  | nil => cases ns <;> simp [unusedEntries]
  | cons u us ih => cases ns with
    | nil => simp [unusedEntries]
    | cons n ns =>
      have := ih ns
      cases u <;> simp [unusedEntries] <;> omega

theorem unusedEntries_eq_zero (us : List Bool) (ns : List Nat) (h : unusedCount us = 0) : unusedEntries us ns = 0 := by
  induction us generalizing ns with
  | nil => cases ns <;> rfl
  | cons u us ih => cases ns with
    | nil => rfl
    | cons n ns =>
      cases u with
      | false => simp [unusedCount] at h
      | true =>
        rw [unusedEntries, ih ns (by simpa [unusedCount] using h)]
        rfl

theorem cat_eq (us : List Bool) (ns : List Nat) (vs : List (List α)) (hl : us.length = vs.length)
    (hv : vs.map List.length = ns) (h1 : ∀ p ∈ us.zip ns, p.1 = false → p.2 = 1) :
    (List.zipWith (fun used v => if used then v else [0]) us vs).flatten = paramDerivative us ns vs := by
  subst hv
  induction us generalizing vs with
  | nil =>
    cases vs with
    | nil => rfl
    | cons v vs => simp at hl
  | cons u us ih =>
    cases vs with
    | nil => simp at hl
    | cons v vs =>
      have hi := ih vs (by simpa using hl) (fun p hp => h1 p (by simp [hp]))
      have hh := h1 (u, v.length) (by simp)
      rw [List.zipWith_cons_cons, List.flatten_cons, hi, List.map_cons, paramDerivative]
      cases u with
      | true => rfl
      | false =>
        have hh : v.length = 1 := hh rfl
        rw [hh]
        rfl

theorem paramDerivative_length (us : List Bool) (vs : List (List α)) (hl : us.length = vs.length) :
    (paramDerivative us (vs.map List.length) vs).length = (vs.map List.length).sum := by
  induction us generalizing vs with
  | nil => cases vs with
    | nil => rfl
    | cons v vs => simp at hl
  | cons u us ih => cases vs with
    | nil => simp at hl
    | cons v vs =>
      have hi := ih vs (by simpa using hl)
      simp only [List.map_cons, paramDerivative, List.length_append, hi, List.sum_cons]
      cases u <;> simp

end cat

theorem torchAdd_same {α : Type} [Add α] (a b : List α) (h : a.length = b.length) :
    torchAdd a b = .ok (List.zipWith (· + ·) a b) := by
  unfold torchAdd
  split
  · obtain ⟨v, rfl⟩ := List.length_eq_one_iff.mp h.symm
    rfl
  · obtain ⟨u, rfl⟩ := List.length_eq_one_iff.mp h
    rfl
  · rw [if_pos h]

theorem torchAdd_mismatch {α : Type} [Add α] (a b : List α) (ha : a.length ≠ 1) (hb : b.length ≠ 1) (h : a.length ≠ b.length) :
    torchAdd a b = .error .runtimeError := by
  unfold torchAdd
  split
  · simp at ha
  · simp at hb
  · rw [if_neg h]

/-! ### The setting -/

section dynamics

variable {α : Type} [Ring α]

/-- What autograd gives for a field with usage `u` and derivatives `gx`, `gt`, `gp`. -/
def usageVjp (u : Usage) (gx : K → List α → List α → List α) (gt : K → List α → List α → α)
    (gp : K → List α → List α → List (List α)) (t : K) (x c : List α) : Except PyErr (VjpResult α) :=
  gradUnused u (gx t x c) (gt t x c) (gp t x c)

/-- The lengths of the vectors at hand are those of the state and of the parameters, of which there is at least one. -/
structure Shaped (u : Usage) (ns : List Nat) (nx : Nat) (vf : K → List α → List α) (gx : K → List α → List α → List α)
    (gp : K → List α → List α → List (List α)) : Prop where
  params : u.params.length = ns.length
  some_param : ns ≠ []
  vf : ∀ t x, x.length = nx → (vf t x).length = nx
  gx : ∀ t x c, (gx t x c).length = nx
  gp : ∀ t x c, (gp t x c).map List.length = ns

variable (u : Usage) (ns : List Nat) (nx : Nat) (vf : K → List α → List α) (gx : K → List α → List α → List α)
  (gt : K → List α → List α → α) (gp : K → List α → List α → List (List α))

theorem Shaped.gp_length {u : Usage} {ns : List Nat} {nx : Nat} {vf : K → List α → List α} {gx : K → List α → List α → List α}
    {gp : K → List α → List α → List (List α)} (h : Shaped u ns nx vf gx gp) (t : K) (x c : List α) :
    u.params.length = (gp t x c).length := by
  rw [h.params, ← h.gp t x c, List.length_map]

theorem Shaped.gp_ne {u : Usage} {ns : List Nat} {nx : Nat} {vf : K → List α → List α} {gx : K → List α → List α → List α}
    {gp : K → List α → List α → List (List α)} (h : Shaped u ns nx vf gx gp) (t : K) (x c : List α) : gp t x c ≠ [] := by
  intro h'
  apply h.some_param
  rw [← h.gp t x c, h']
  rfl

theorem usageVjp_used {u : Usage} (hx : u.x = true) (t : K) (x c : List α) :
    usageVjp u gx gt gp t x c = .ok ⟨some (gx t x c), if u.t then some (gt t x c) else none,
      List.zipWith (fun used v => if used then some v else none) u.params (gp t x c)⟩ := by
  simp [usageVjp, gradUnused, hx]

/-- The dynamics of the adjoint for a field which uses the state. -/
theorem adjointDynamicsFlat_used {u : Usage} {ns : List Nat} {nx : Nat} {vf : K → List α → List α}
    {gx : K → List α → List α → List α} {gp : K → List α → List α → List (List α)} (h : Shaped u ns nx vf gx gp) (hx : u.x = true)
    (loss : Option (K → List α → List α)) (t : K) (x lam mu : List α) (lamT : α) :
    adjointDynamicsFlat (List.map (- ·)) vf (usageVjp u gx gt gp) (loss.map fun dg t x => .ok (some (dg t x)))
        x.length lam.length mu.length t (packAdjoint x lam mu lamT) =
      .ok (packAdjoint (vf t x)
        ((loss.map fun dg => List.zipWith (· - ·) (gx t x (lam.map (- ·))) (dg t x)).getD (gx t x (lam.map (- ·))))
        (List.zipWith (fun used v => if used then v else [0]) u.params (gp t x (lam.map (- ·)))).flatten
        (if u.t then gt t x (lam.map (- ·)) else 0)) := by
  unfold adjointDynamicsFlat
  rw [C55_unpack_pack]
  have hc := catParams_zipWith u.params (gp t x (lam.map (- ·))) (h.gp_length t x _) (h.gp_ne t x _)
  have hu := usageVjp_used gx gt gp hx t x (lam.map (- ·))
  simp only [hu, bind, Except.bind, pure, Except.pure]
  unfold packAdjoint
  cases loss <;> cases u.t <;>
    simp only [subtractLoss, Option.map_none, Option.map_some, Option.getD_none, Option.getD_some, bind, Except.bind, pure,
      Except.pure, hc, if_true, if_false, Bool.false_eq_true]

/-- The dynamics of the interpolated adjoint for a field which uses the state. -/
theorem interpDynamicsFlat_used {u : Usage} {ns : List Nat} {nx : Nat} {vf : K → List α → List α}
    {gx : K → List α → List α → List α} {gp : K → List α → List α → List (List α)} (h : Shaped u ns nx vf gx gp) (hx : u.x = true)
    (loss : Option (K → List α → List α)) (curve : K → List α) (t : K) (lam mu : List α) (hmu : mu ≠ []) :
    interpDynamicsFlat (List.map (- ·)) curve (usageVjp u gx gt gp) (loss.map fun dg t x => .ok (some (dg t x)))
        lam.length mu.length t (packInterp lam mu) =
      .ok (packInterp ((loss.map fun dg => List.zipWith (· - ·) (gx t (curve t) (lam.map (- ·))) (dg t (curve t))).getD
          (gx t (curve t) (lam.map (- ·))))
        (List.zipWith (fun used v => if used then v else [0]) u.params (gp t (curve t) (lam.map (- ·)))).flatten) := by
  unfold interpDynamicsFlat
  have hc := catParams_zipWith u.params (gp t (curve t) (lam.map (- ·))) (h.gp_length t _ _) (h.gp_ne t _ _)
  have hu := usageVjp_used gx gt gp hx t (curve t) (lam.map (- ·))
  rw [C55_interp lam mu hmu]
  simp only [hu, bind, Except.bind, pure, Except.pure]
  cases loss <;>
    simp only [subtractLoss, Option.map_none, Option.map_some, Option.getD_none, Option.getD_some, bind, Except.bind, pure,
      Except.pure, hc, packInterp]

theorem adjFirstStage_ok {α : Type} [Add α] [Mul α] (dyn : List α → Except PyErr (List α)) (dt : α) (A k : List α) (h : dyn A = .ok k)
    (hl : A.length = k.length) : adjFirstStage dyn dt A = .ok (List.zipWith (fun a b => a + dt * b) A k) := by
  simp only [adjFirstStage, h, bind, Except.bind]
  rw [torchAdd_same _ _ (by simpa using hl), List.zipWith_map_right]

theorem adjFirstStage_mismatch {α : Type} [Add α] [Mul α] (dyn : List α → Except PyErr (List α)) (dt : α) (A k : List α)
    (h : dyn A = .ok k) (ha : A.length ≠ 1) (hb : k.length ≠ 1) (hl : A.length ≠ k.length) :
    adjFirstStage dyn dt A = .error .runtimeError := by
  simp only [adjFirstStage, h, bind, Except.bind]
  rw [torchAdd_mismatch _ _ ha (by simpa using hb) (by simpa using hl)]

theorem adjFirstStage_error {α : Type} [Add α] [Mul α] (dyn : List α → Except PyErr (List α)) (dt : α) (A : List α) (e : PyErr)
    (h : dyn A = .error e) : adjFirstStage dyn dt A = .error e := by
  simp only [adjFirstStage, h, bind, Except.bind]

/-! ### C129 -/

/-- **C129**, the part that holds: if the field uses the state, and each parameter it does not use has one element, then the first
stage of a solver on the adjoint state succeeds and moves it along the adjoint equation with zero derivatives for the unused
parameters, and for the time if it is not used. Missing from the full claim: a field that does not use the state, and unused
parameters of another size (the theorems below show that both fail). -/
theorem C129_adjoint_partial {u : Usage} {ns : List Nat} {nx : Nat} {vf : K → List α → List α}
    {gx : K → List α → List α → List α} {gp : K → List α → List α → List (List α)} (h : Shaped u ns nx vf gx gp) (hx : u.x = true)
    (h1 : ∀ p ∈ u.params.zip ns, p.1 = false → p.2 = 1) (loss : Option (K → List α → List α))
    (hloss : ∀ dg ∈ loss, ∀ t x, x.length = nx → (dg t x).length = nx) (t : K) (dt : α) (x lam mu : List α) (lamT : α)
    (hxn : x.length = nx) (hln : lam.length = nx) (hmn : mu.length = ns.sum) :
    adjFirstStage (adjointDynamicsFlat (List.map (- ·)) vf (usageVjp u gx gt gp) (loss.map fun dg t x => .ok (some (dg t x)))
        nx nx ns.sum t) dt (x ++ lam ++ mu ++ [lamT]) =
      .ok (List.zipWith (fun a b => a + dt * b) (x ++ lam ++ mu ++ [lamT])
        (vf t x ++ stateDerivative u.x (gx t x (lam.map (- ·))) (loss.map fun dg => dg t x) ++
          paramDerivative u.params ns (gp t x (lam.map (- ·))) ++ [if u.t then gt t x (lam.map (- ·)) else 0])) := by
  have hd := adjointDynamicsFlat_used gt h hx loss t x lam mu lamT
  rw [cat_eq u.params ns _ (h.gp_length t x _) (h.gp t x _) h1, hxn, hln, hmn] at hd
  have hs : ((loss.map fun dg => List.zipWith (· - ·) (gx t x (lam.map (- ·))) (dg t x)).getD (gx t x (lam.map (- ·)))) =
      stateDerivative u.x (gx t x (lam.map (- ·))) (loss.map fun dg => dg t x) := by
    rw [hx]
    cases loss <;> rfl
  rw [hs] at hd
  refine adjFirstStage_ok _ dt _ _ hd ?_
  have hsl : (stateDerivative u.x (gx t x (lam.map (- ·))) (loss.map fun dg => dg t x)).length = nx := by
    rw [hx]
    cases loss with
    | none => simp [stateDerivative, h.gx]
    | some dg => simp [stateDerivative, h.gx, hloss dg rfl t x hxn]
  have hpl : (paramDerivative u.params ns (gp t x (lam.map (- ·)))).length = ns.sum := by
    have := paramDerivative_length u.params (gp t x (lam.map (- ·))) (h.gp_length t x _)
    rwa [h.gp] at this
  simp only [packAdjoint, List.length_append, hsl, hpl, h.vf t x hxn, hxn, hln, hmn, List.length_cons, List.length_nil]

/-- **C129** for the interpolated adjoint, the part that holds: the same, along the curve the spline gives. -/
theorem C129_interp_partial {u : Usage} {ns : List Nat} {nx : Nat} {vf : K → List α → List α}
    {gx : K → List α → List α → List α} {gp : K → List α → List α → List (List α)} (h : Shaped u ns nx vf gx gp) (hx : u.x = true)
    (h1 : ∀ p ∈ u.params.zip ns, p.1 = false → p.2 = 1) (loss : Option (K → List α → List α)) (curve : K → List α) (t : K) (dt : α)
    (hloss : ∀ dg ∈ loss, (dg t (curve t)).length = nx) (lam mu : List α)
    (hln : lam.length = nx) (hmn : mu.length = ns.sum) (hmu : mu ≠ []) :
    adjFirstStage (interpDynamicsFlat (List.map (- ·)) curve (usageVjp u gx gt gp) (loss.map fun dg t x => .ok (some (dg t x)))
        nx ns.sum t) dt (lam ++ mu) =
      .ok (List.zipWith (fun a b => a + dt * b) (lam ++ mu)
        (stateDerivative u.x (gx t (curve t) (lam.map (- ·))) (loss.map fun dg => dg t (curve t)) ++
          paramDerivative u.params ns (gp t (curve t) (lam.map (- ·))))) := by
  have hd := interpDynamicsFlat_used gt h hx loss curve t lam mu hmu
  rw [cat_eq u.params ns _ (h.gp_length t _ _) (h.gp t _ _) h1, hln, hmn] at hd
  have hs : ((loss.map fun dg => List.zipWith (· - ·) (gx t (curve t) (lam.map (- ·))) (dg t (curve t))).getD
      (gx t (curve t) (lam.map (- ·)))) =
      stateDerivative u.x (gx t (curve t) (lam.map (- ·))) (loss.map fun dg => dg t (curve t)) := by
    rw [hx]
    cases loss <;> rfl
  rw [hs] at hd
  refine adjFirstStage_ok _ dt _ _ hd ?_
  have hsl : (stateDerivative u.x (gx t (curve t) (lam.map (- ·))) (loss.map fun dg => dg t (curve t))).length = nx := by
    rw [hx]
    cases loss with
    | none => simp [stateDerivative, h.gx]
    | some dg => simp [stateDerivative, h.gx, hloss dg rfl]
  have hpl : (paramDerivative u.params ns (gp t (curve t) (lam.map (- ·)))).length = ns.sum := by
    have := paramDerivative_length u.params (gp t (curve t) (lam.map (- ·))) (h.gp_length t _ _)
    rwa [h.gp] at this
  simp only [packInterp, List.length_append, hsl, hpl, hln, hmn]

/-- **C129**, refuted for parameters: whenever the parameters the field does not use have together more or fewer entries than there
are of them, as one unused weight matrix does, the first stage of the adjoint solve raises `RuntimeError`, in both adjoints. -/
theorem C129_parameter_refuted {u : Usage} {ns : List Nat} {nx : Nat} {vf : K → List α → List α}
    {gx : K → List α → List α → List α} {gp : K → List α → List α → List (List α)} (h : Shaped u ns nx vf gx gp) (hx : u.x = true)
    (hne : unusedEntries u.params ns ≠ unusedCount u.params) (hnx : 1 ≤ nx) (hns : 1 ≤ ns.sum) (curve : K → List α) (t : K) (dt : α)
    (x lam mu : List α) (lamT : α) (hxn : x.length = nx) (hln : lam.length = nx) (hmn : mu.length = ns.sum) :
    adjFirstStage (adjointDynamicsFlat (List.map (- ·)) vf (usageVjp u gx gt gp) none nx nx ns.sum t) dt
        (x ++ lam ++ mu ++ [lamT]) = .error .runtimeError ∧
      adjFirstStage (interpDynamicsFlat (List.map (- ·)) curve (usageVjp u gx gt gp) none nx ns.sum t) dt (lam ++ mu) =
        .error .runtimeError := by
  have hmu : mu ≠ [] := by
    rintro rfl
    simp at hmn
    omega
  constructor
  · have hd := adjointDynamicsFlat_used gt h hx none t x lam mu lamT
    have hc := cat_length u.params ns (gp t x (lam.map (- ·))) (h.gp_length t x _) (h.gp t x _)
    rw [hxn, hln, hmn] at hd
    refine adjFirstStage_mismatch _ dt _ _ hd ?_ ?_ ?_ <;>
      simp only [packAdjoint, List.length_append, h.vf t x hxn, h.gx, hxn, hln, hmn, List.length_cons, List.length_nil,
        Option.map_none, Option.getD_none] <;> omega
  · have hd := interpDynamicsFlat_used gt h hx none curve t lam mu hmu
    have hc := cat_length u.params ns (gp t (curve t) (lam.map (- ·))) (h.gp_length t _ _) (h.gp t _ _)
    have he := unusedEntries_le u.params ns
    have hz := unusedEntries_eq_zero u.params ns
    rw [hln, hmn] at hd
    refine adjFirstStage_mismatch _ dt _ _ hd ?_ ?_ ?_ <;>
      simp only [packInterp, List.length_append, h.gx, hln, hmn, Option.map_none, Option.getD_none] <;> omega

/-- **C129**, refuted for the state: if the field does not use the state (`ẋ = θ`, `ẋ = sin t`), the adjoint solve raises in both
adjoints: `AttributeError` at `dλ.flatten()`, `TypeError` at `dλ - dg` if there is an integral loss; and `RuntimeError` from
`torch.autograd.grad` if it uses nothing at all. -/
theorem C129_state_refuted {u : Usage} {ns : List Nat} {nx : Nat} {vf : K → List α → List α}
    {gx : K → List α → List α → List α} {gp : K → List α → List α → List (List α)} (h : Shaped u ns nx vf gx gp) (hx : u.x = false)
    (dg : K → List α → List α) (curve : K → List α) (t : K) (dt : α) (A B : List α) :
    let e := if u.t || u.params.any id then PyErr.attributeError else .runtimeError
    let e' := if u.t || u.params.any id then PyErr.typeError else .runtimeError
    adjFirstStage (adjointDynamicsFlat (List.map (- ·)) vf (usageVjp u gx gt gp) none nx nx ns.sum t) dt A = .error e ∧
      adjFirstStage (interpDynamicsFlat (List.map (- ·)) curve (usageVjp u gx gt gp) none nx ns.sum t) dt B = .error e ∧
      adjFirstStage (adjointDynamicsFlat (List.map (- ·)) vf (usageVjp u gx gt gp) (some fun t x => .ok (some (dg t x)))
        nx nx ns.sum t) dt A = .error e' ∧
      adjFirstStage (interpDynamicsFlat (List.map (- ·)) curve (usageVjp u gx gt gp) (some fun t x => .ok (some (dg t x)))
        nx ns.sum t) dt B = .error e' := by
  intro e e'
  by_cases hu : (u.t || u.params.any id) = true
  · have hv : ∀ t x c, usageVjp u gx gt gp t x c = .ok ⟨none, if u.t then some (gt t x c) else none,
        List.zipWith (fun used v => if used then some v else none) u.params (gp t x c)⟩ := by
      intro t x c
      simp [usageVjp, gradUnused, hx, hu]
    have hc := fun t x c => catParams_zipWith u.params (gp t x c) (h.gp_length t x c) (h.gp_ne t x c)
    have he : e = .attributeError := if_pos hu
    have he' : e' = .typeError := if_pos hu
    rw [he, he']
    refine ⟨?_, ?_, ?_, ?_⟩ <;> apply adjFirstStage_error <;>
      simp only [adjointDynamicsFlat, interpDynamicsFlat, hv, hc, subtractLoss, bind, Except.bind, pure, Except.pure, throw, throwThe,
        MonadExceptOf.throw]
  · have hv : ∀ t x c, usageVjp u gx gt gp t x c = .error .runtimeError := by
      intro t x c
      simp only [usageVjp, gradUnused, hx, Bool.false_or, hu]
      rfl
    have he : e = .runtimeError := if_neg hu
    have he' : e' = .runtimeError := if_neg hu
    rw [he, he']
    refine ⟨?_, ?_, ?_, ?_⟩ <;> apply adjFirstStage_error <;>
      simp only [adjointDynamicsFlat, interpDynamicsFlat, hv, bind, Except.bind]

/-- **C129**, refuted for the integral loss: a loss which does not use the state (its gradient is `None`) makes both adjoint solves
raise `TypeError`, whatever the field. -/
theorem C129_loss_refuted {u : Usage} {ns : List Nat} {nx : Nat} {vf : K → List α → List α}
    {gx : K → List α → List α → List α} {gp : K → List α → List α → List (List α)}
    (hx : (u.x || u.t || u.params.any id) = true) (curve : K → List α) (t : K) (dt : α) (A B : List α) :
    adjFirstStage (adjointDynamicsFlat (List.map (- ·)) vf (usageVjp u gx gt gp) (some fun _ _ => .ok none) nx nx ns.sum t) dt A =
        .error .typeError ∧
      adjFirstStage (interpDynamicsFlat (List.map (- ·)) curve (usageVjp u gx gt gp) (some fun _ _ => .ok none) nx ns.sum t) dt B =
        .error .typeError := by
  have hv : ∀ t x c, usageVjp u gx gt gp t x c = .ok ⟨if u.x then some (gx t x c) else none, if u.t then some (gt t x c) else none,
      List.zipWith (fun used v => if used then some v else none) u.params (gp t x c)⟩ := by
    intro t x c
    simp only [usageVjp, gradUnused, hx, if_true]
  constructor <;> apply adjFirstStage_error <;> rcases hux : u.x <;>
    simp only [hux, adjointDynamicsFlat, interpDynamicsFlat, hv, subtractLoss, bind, Except.bind, pure, Except.pure, throw, throwThe,
      MonadExceptOf.throw, if_true, if_false, Bool.false_eq_true]

/-- **C129** for fields without parameters: the adjoint equation of a field that uses the state and has no parameter at all raises
`RuntimeError`, with and without time and in both adjoints (`torch.cat` of nothing). With the unused parameter of one element that
`ODEProblem` registers in this case (problems.py:97-103) it is solved, the derivative for that parameter being zero. -/
theorem C129_dummy_parameter {nx : Nat} {vf : K → List α → List α} {gx : K → List α → List α → List α} (ut : Bool)
    (hvf : ∀ t x, x.length = nx → (vf t x).length = nx) (hgx : ∀ t x c, (gx t x c).length = nx)
    (curve : K → List α) (t : K) (dt : α) (A B x lam : List α) (mu lamT : α) (hxn : x.length = nx) (hln : lam.length = nx) :
    (adjFirstStage (adjointDynamicsFlat (List.map (- ·)) vf (usageVjp ⟨true, ut, []⟩ gx gt fun _ _ _ => []) none nx nx 0 t) dt A =
        .error .runtimeError ∧
      adjFirstStage (interpDynamicsFlat (List.map (- ·)) curve (usageVjp ⟨true, ut, []⟩ gx gt fun _ _ _ => []) none nx 0 t) dt B =
        .error .runtimeError) ∧
    adjFirstStage (adjointDynamicsFlat (List.map (- ·)) vf (usageVjp ⟨true, ut, [false]⟩ gx gt fun _ _ _ => [[0]]) none nx nx 1 t) dt
        (x ++ lam ++ [mu] ++ [lamT]) =
      .ok (List.zipWith (fun a b => a + dt * b) (x ++ lam ++ [mu] ++ [lamT])
        (vf t x ++ gx t x (lam.map (- ·)) ++ [0] ++ [if ut then gt t x (lam.map (- ·)) else 0])) ∧
    adjFirstStage (interpDynamicsFlat (List.map (- ·)) curve (usageVjp ⟨true, ut, [false]⟩ gx gt fun _ _ _ => [[0]]) none nx 1 t) dt
        (lam ++ [mu]) =
      .ok (List.zipWith (fun a b => a + dt * b) (lam ++ [mu]) (gx t (curve t) (lam.map (- ·)) ++ [0])) := by
  have h : Shaped ⟨true, ut, [false]⟩ [1] nx vf gx fun _ _ _ => [[(0 : α)]] := ⟨rfl, by simp, hvf, hgx, by simp⟩
  refine ⟨⟨?_, ?_⟩, ?_, ?_⟩
  · apply adjFirstStage_error
    simp [adjointDynamicsFlat, usageVjp, gradUnused, subtractLoss, catParams, bind, Except.bind]
  · apply adjFirstStage_error
    simp [interpDynamicsFlat, usageVjp, gradUnused, subtractLoss, catParams, bind, Except.bind]
  · exact C129_adjoint_partial gt h rfl (by simp) none (by simp) t dt x lam [mu] lamT hxn hln rfl
  · exact C129_interp_partial gt h rfl (by simp) none curve t dt (by simp) lam [mu] hln rfl (by simp)

end dynamics

/-! ### Concrete fields -/

/-- `ẋ = a x` with an unused scalar parameter `b`: the hypotheses of `C129_adjoint_partial` are met. -/
def scaleUsage : Usage := ⟨true, false, [true, false]⟩

theorem scale_shaped (a : ℚ) : Shaped scaleUsage [1, 1] 1 (fun (_ : ℚ) x => x.map (a * ·))
    (fun _ _ c => [a * c.sum]) (fun _ x c => [[x.sum * c.sum], [0]]) where
  params := rfl
  some_param := by simp
  vf := by simp
  gx := by simp
  gp := by simp

example : adjFirstStage (adjointDynamicsFlat (List.map (- ·)) (fun (_ : ℚ) x => x.map ((3 : ℚ) * ·))
    (usageVjp scaleUsage (fun _ _ c => [3 * c.sum]) (fun _ _ _ => 0) (fun _ x c => [[x.sum * c.sum], [0]])) none 1 1 2 0) (1/2)
    ([2] ++ [5] ++ [0, 0] ++ [0]) = .ok [5, -5/2, -5, 0, 0] := by
  refine (C129_adjoint_partial _ (scale_shaped 3) rfl (by decide) none (by simp) 0 (1/2) [2] [5] [0, 0] 0 rfl rfl rfl).trans ?_
  simp [stateDerivative, paramDerivative, scaleUsage]
  norm_num

/-- With an unused weight of two entries the same field cannot be differentiated by the adjoints. -/
example : Shaped ⟨true, false, [true, false]⟩ [1, 2] 1 (fun (_ : ℚ) x => x.map ((3 : ℚ) * ·))
    (fun _ _ c => [3 * c.sum]) (fun _ x c => [[x.sum * c.sum], [0, 0]]) ∧
    unusedEntries [true, false] [1, 2] ≠ unusedCount [true, false] :=
  ⟨⟨rfl, by simp, by simp, by simp, by simp⟩, by decide⟩

/-- `ẋ = θ`: the state is not used. -/
example : Shaped ⟨false, false, [true]⟩ [1] 1 (fun (_ : ℚ) (_ : List ℚ) => [7]) (fun _ _ _ => [0]) (fun _ _ c => [[c.sum]]) :=
  ⟨rfl, by simp, by simp, by simp, by simp⟩

/-- **C129**, refuted in value: an unused parameter without entries makes up for an unused one with two entries. The solve goes
through, and the derivative with respect to the parameter used is added to an entry of the unused one: the parameters are `p`
(two entries, unused), `q` (used) and `r` (no entries, unused), and the second entry of `p` gets the gradient of `q`. -/
theorem C129_misplaced_refuted :
    adjFirstStage (interpDynamicsFlat (List.map (- ·)) (fun _ : ℚ => [(2 : ℚ)])
      (usageVjp ⟨true, false, [false, true, false]⟩ (fun _ _ c => [3 * c.sum]) (fun _ _ _ => 0)
        (fun _ x c => [[0, 0], [x.sum * c.sum], []])) none 1 3 0) 1 ([5] ++ [0, 0, 0]) = .ok [-10, 0, -10, 0] ∧
    paramDerivative [false, true, false] [2, 1, 0] [[0, 0], [(2 : ℚ) * -5], []] = [0, 0, -10] := by
  decide +kernel

end Torchdyn
