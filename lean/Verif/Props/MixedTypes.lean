import Verif.Model.MixedTypes
import Verif.Props.AdaptiveTermination
import Verif.Props.AutogradAdaptive
import Verif.Props.OdeShapes

/-!
Property C140: the floating-point types and the number of axes of state and grid in `odeint`.
-/

set_option linter.unusedSectionVars false
set_option linter.unusedSimpArgs false
set_option linter.unusedVariables false

namespace Spec

open Torchdyn

/-- An operation of a tensor of type `d` that has an axis with a tensor with tag `a` does not have to change the type: `a` is
zero-dimensional or not wider than `d`. -/
def NoWiden (d : Dtype) (a : Tag) : Prop := a.dim = true → a.dtype = .float64 → d = .float64

end Spec

namespace Torchdyn

open Spec

/-! ### Tags -/

/-- Tags in the order of type promotion. -/
def Tag.rank (a : Tag) : ℕ := (if a.dim then 2 else 0) + (if a.dtype = .float64 then 1 else 0)

theorem rank_join (a b : Tag) : (a.join b).rank = max a.rank b.rank := by
  obtain ⟨_ | _, _ | _⟩ := a <;> obtain ⟨_ | _, _ | _⟩ := b <;> rfl

theorem rank_inj {a b : Tag} (h : a.rank = b.rank) : a = b := by
  obtain ⟨_ | _, _ | _⟩ := a <;> obtain ⟨_ | _, _ | _⟩ := b <;> first | rfl | (exfalso; revert h; decide)

theorem rank_le (a : Tag) : a.rank ≤ 3 := by obtain ⟨_ | _, _ | _⟩ := a <;> decide

theorem join_dim (a b : Tag) : (a.join b).dim = (a.dim || b.dim) := by
  obtain ⟨_ | _, _ | _⟩ := a <;> obtain ⟨_ | _, _ | _⟩ := b <;> rfl

theorem two_le_rank {a : Tag} : 2 ≤ a.rank ↔ a.dim = true := by obtain ⟨_ | _, _ | _⟩ := a <;> decide

/-- Tags between two ranks. -/
def InR (lo hi : ℕ) (a : Tag) : Prop := lo ≤ a.rank ∧ a.rank ≤ hi

theorem InR.left {lo hi : ℕ} {a b : Tag} (ha : InR lo hi a) (hb : b.rank ≤ hi) : InR lo hi (a.join b) := by
  unfold InR at *
  rw [rank_join]
  omega

theorem InR.right {lo hi : ℕ} {a b : Tag} (ha : a.rank ≤ hi) (hb : InR lo hi b) : InR lo hi (a.join b) := by
  unfold InR at *
  rw [rank_join]
  omega

theorem rank_join_le {hi : ℕ} {a b : Tag} (ha : a.rank ≤ hi) (hb : b.rank ≤ hi) : (a.join b).rank ≤ hi := by
  rw [rank_join]
  omega

section ops

variable {α K V : Type} [Field K] [AddCommGroup V] [Module K V]

theorem add_tag [Add α] (a b : Tagged α) : (a + b).tag = a.tag.join b.tag := rfl
theorem sub_tag [Sub α] (a b : Tagged α) : (a - b).tag = a.tag.join b.tag := rfl
theorem neg_tag [Neg α] (a : Tagged α) : (-a).tag = a.tag := rfl
theorem mul_tag (a : Tagged K) (b : Tagged V) : (a * b).tag = a.tag.join b.tag := rfl
theorem entry_tag (d : Dtype) (c : K) : (entry d c).tag = ⟨d, false⟩ := rfl
theorem half_tag (a : Tagged K) : (half a).tag = a.tag := rfl
theorem add_val [Add α] (a b : Tagged α) : (a + b).val = a.val + b.val := rfl
theorem sub_val [Sub α] (a b : Tagged α) : (a - b).val = a.val - b.val := rfl
theorem neg_val [Neg α] (a : Tagged α) : (-a).val = -a.val := rfl
theorem mul_val (a : Tagged K) (b : Tagged V) : (a * b).val = a.val • b.val := rfl
theorem entry_val (d : Dtype) (c : K) : (entry d c).val = c := rfl
theorem half_val (a : Tagged K) : (half a).val = 1 / 2 * a.val := rfl

end ops

/-- Closes goals about the rank of a joined tag. -/
syntax "tag_bound" : tactic
macro_rules
  | `(tactic| tag_bound) => `(tactic| first
      | assumption
      | (refine InR.left ?_ ?_ <;> tag_bound)
      | (refine InR.right ?_ ?_ <;> tag_bound)
      | (refine rank_join_le ?_ ?_ <;> tag_bound)
      | exact And.right (by assumption))

/-! ### Values -/

section values

variable {K V : Type} [Field K] [AddCommGroup V] [Module K V]

/-- On states with tags between two ranks and times with tags of bounded rank the field does not raise, computes `g`, and its values
have tags between the two ranks. -/
def ComputesIn (lo hi : ℕ) (f : Tagged K → Tagged V → Except PyErr (Tagged V)) (g : K → V → V) : Prop :=
  ∀ t x, t.tag.rank ≤ hi → InR lo hi x.tag → ∃ τ, InR lo hi τ ∧ f t x = .ok ⟨g t.val x.val, τ⟩

theorem ComputesIn.reverse {lo hi : ℕ} {f : Tagged K → Tagged V → Except PyErr (Tagged V)} {g : K → V → V}
    (h : ComputesIn lo hi f g) : ComputesIn lo hi (reverseTagged f) (fun t x => -g (-t) x) := by
  intro t x ht hx
  obtain ⟨τ, hτ, e⟩ := h (-t) x ht hx
  refine ⟨τ, hτ, ?_⟩
  unfold reverseTagged
  rw [e]
  rfl

/-- One step of `dopri5` or `tsit5`: values and tags. -/
theorem rk7Tagged_values {lo hi : ℕ} {f : Tagged K → Tagged V → Except PyErr (Tagged V)} {g : K → V → V}
    (hf : ComputesIn lo hi f g) (tsit : Bool) (d : Dtype) (hd0 : (Tag.mk d false).rank ≤ hi) (hd : (Tag.mk d (!tsit)).rank ≤ hi)
    (tab : Tableau K) (x : Tagged V) (t dt : Tagged K) (k1 : Tagged V) (hx : InR lo hi x.tag) (hk : InR lo hi k1.tag)
    (ht : t.tag.rank ≤ hi) (hdt : dt.tag.rank ≤ hi) :
    ∃ k7 xs err st, rk7Tagged tsit d tab f x t dt k1 = .ok (.four k7 xs err st) ∧ InR lo hi k7.tag ∧ InR lo hi xs.tag ∧
      (∀ A : Type, ∀ args : A, rk7Step (m := Except PyErr) tab (pureField g) x.val t.val dt.val (some k1.val) args =
        .ok (.four k7.val xs.val err.val (st.map Tagged.val))) := by
  obtain ⟨τ2, h2, e2⟩ := hf (t + entry d (nth tab.c 0) * dt)
    (x + dt * (⟨nth2 tab.a 0 0, ⟨d, !tsit⟩⟩ : Tagged K) * k1)
    (by simp only [add_tag, mul_tag, entry_tag]; tag_bound) (by simp only [add_tag, mul_tag, entry_tag]; tag_bound)
  generalize hk2 : (Tagged.mk (g _ _) τ2 : Tagged V) = k2 at e2
  have t2 : InR lo hi k2.tag := by rw [← hk2]; exact h2
  have v2 := congrArg Tagged.val hk2
  obtain ⟨τ3, h3, e3⟩ := hf (t + entry d (nth tab.c 1) * dt)
    (x + dt * (entry d (nth2 tab.a 1 0) * k1 + entry d (nth2 tab.a 1 1) * k2))
    (by simp only [add_tag, mul_tag, entry_tag]; tag_bound) (by simp only [add_tag, mul_tag, entry_tag]; tag_bound)
  generalize hk3 : (Tagged.mk (g _ _) τ3 : Tagged V) = k3 at e3
  have t3 : InR lo hi k3.tag := by rw [← hk3]; exact h3
  have v3 := congrArg Tagged.val hk3
  obtain ⟨τ4, h4, e4⟩ := hf (t + entry d (nth tab.c 2) * dt)
    (x + dt * entry d (nth2 tab.a 2 0) * k1 + dt * entry d (nth2 tab.a 2 1) * k2 + dt * entry d (nth2 tab.a 2 2) * k3)
    (by simp only [add_tag, mul_tag, entry_tag]; tag_bound) (by simp only [add_tag, mul_tag, entry_tag]; tag_bound)
  generalize hk4 : (Tagged.mk (g _ _) τ4 : Tagged V) = k4 at e4
  have t4 : InR lo hi k4.tag := by rw [← hk4]; exact h4
  have v4 := congrArg Tagged.val hk4
  obtain ⟨τ5, h5, e5⟩ := hf (t + entry d (nth tab.c 3) * dt)
    (x + dt * entry d (nth2 tab.a 3 0) * k1 + dt * entry d (nth2 tab.a 3 1) * k2 + dt * entry d (nth2 tab.a 3 2) * k3 + dt * entry d (nth2 tab.a 3 3) * k4)
    (by simp only [add_tag, mul_tag, entry_tag]; tag_bound) (by simp only [add_tag, mul_tag, entry_tag]; tag_bound)
  generalize hk5 : (Tagged.mk (g _ _) τ5 : Tagged V) = k5 at e5
  have t5 : InR lo hi k5.tag := by rw [← hk5]; exact h5
  have v5 := congrArg Tagged.val hk5
  obtain ⟨τ6, h6, e6⟩ := hf (t + entry d (nth tab.c 4) * dt)
    (x + dt * entry d (nth2 tab.a 4 0) * k1 + dt * entry d (nth2 tab.a 4 1) * k2 + dt * entry d (nth2 tab.a 4 2) * k3 + dt * entry d (nth2 tab.a 4 3) * k4 + dt * entry d (nth2 tab.a 4 4) * k5)
    (by simp only [add_tag, mul_tag, entry_tag]; tag_bound) (by simp only [add_tag, mul_tag, entry_tag]; tag_bound)
  generalize hk6 : (Tagged.mk (g _ _) τ6 : Tagged V) = k6 at e6
  have t6 : InR lo hi k6.tag := by rw [← hk6]; exact h6
  have v6 := congrArg Tagged.val hk6
  obtain ⟨τ7, h7, e7⟩ := hf (t + entry d (nth tab.c 5) * dt)
    (x + dt * entry d (nth2 tab.a 5 0) * k1 + dt * entry d (nth2 tab.a 5 1) * k2 + dt * entry d (nth2 tab.a 5 2) * k3 + dt * entry d (nth2 tab.a 5 3) * k4 + dt * entry d (nth2 tab.a 5 4) * k5 + dt * entry d (nth2 tab.a 5 5) * k6)
    (by simp only [add_tag, mul_tag, entry_tag]; tag_bound) (by simp only [add_tag, mul_tag, entry_tag]; tag_bound)
  generalize hk7 : (Tagged.mk (g _ _) τ7 : Tagged V) = k7 at e7
  have t7 : InR lo hi k7.tag := by rw [← hk7]; exact h7
  have v7 := congrArg Tagged.val hk7
  have hrun : rk7Tagged tsit d tab f x t dt k1 = .ok (.four k7
      (x + dt * (entry d (nth tab.bsol 0) * k1 + entry d (nth tab.bsol 1) * k2 + entry d (nth tab.bsol 2) * k3 + entry d (nth tab.bsol 3) * k4 + entry d (nth tab.bsol 4) * k5 + entry d (nth tab.bsol 5) * k6))
      (dt * (entry d (nth tab.berr 0) * k1 + entry d (nth tab.berr 1) * k2 + entry d (nth tab.berr 2) * k3 + entry d (nth tab.berr 3) * k4 + entry d (nth tab.berr 4) * k5 + entry d (nth tab.berr 5) * k6 + entry d (nth tab.berr 6) * k7))
      [k1, k2, k3, k4, k5, k6, k7]) := by
    simp only [rk7Tagged, e2, e3, e4, e5, e6, e7, bind, Except.bind, pure, Except.pure]
  refine ⟨k7, _, _, _, hrun, t7, by simp only [add_tag, mul_tag, entry_tag]; tag_bound, ?_⟩
  intro A args
  simp only [add_val, mul_val, entry_val, smul_eq_mul] at v2 v3 v4 v5 v6 v7
  simp only [rk7Step, firstStage, pureField, bind, Except.bind, pure, Except.pure, v2, v3, v4, v5, v6, v7, add_val, mul_val, entry_val,
    List.map_cons, List.map_nil]

end values

section adaptive

variable {ι : Type}

/-- The values of the loop variables. -/
def AState.untag (s : AState (Tagged ℝ) (Tagged (ι → ℝ))) : AState ℝ (ι → ℝ) :=
  { t := s.t.val, dt := s.dt.val, x := s.x.val, k1 := s.k1.val, ckpt := s.ckpt, ckptFlag := s.ckptFlag, dtOld := s.dtOld.val,
    evalTimes := s.evalTimes.map Tagged.val, sol := s.sol.map Tagged.val }

/-- The tags of the loop variables are between two ranks (states) or bounded (times). -/
structure TagsIn (lo hi : ℕ) (s : AState (Tagged ℝ) (Tagged (ι → ℝ))) : Prop where
  x : InR lo hi s.x.tag
  k1 : InR lo hi s.k1.tag
  t : s.t.tag.rank ≤ hi
  dt : s.dt.tag.rank ≤ hi
  dtOld : s.dtOld.tag.rank ≤ hi
  sol : ∀ y ∈ s.sol, InR lo hi y.tag

theorem taggedDt_values (hasInterp : Bool) (dT : Dtype) (tEval : List ℝ) (T : ℝ) (s : AState (Tagged ℝ) (Tagged (ι → ℝ))) :
    checkpointDt hasInterp tEval s.untag (clampDt T s.untag) =
      ((taggedCheckpointDt hasInterp dT tEval s (taggedClampDt dT T s)).1.val,
        (taggedCheckpointDt hasInterp dT tEval s (taggedClampDt dT T s)).2.1.val,
        (taggedCheckpointDt hasInterp dT tEval s (taggedClampDt dT T s)).2.2) := by
  have hcl : (taggedClampDt dT T s).val = clampDt T s.untag := by
    unfold taggedClampDt clampDt
    have e1 : s.untag.t = s.t.val := rfl
    have e2 : s.untag.dt = s.dt.val := rfl
    rw [e1, e2]
    split <;> rfl
  rw [← hcl]
  unfold checkpointDt taggedCheckpointDt
  have e1 : s.untag.t = s.t.val := rfl
  have e2 : s.untag.ckpt = s.ckpt := rfl
  rw [e1, e2]
  cases tEval[s.ckpt]? with
  | none => rfl
  | some te =>
    simp only
    by_cases hlt : te < s.t.val + (taggedClampDt dT T s).val
    · simp only [if_pos hlt]
      cases hasInterp <;> rfl
    · simp only [if_neg hlt]
      rfl

theorem taggedDt_tags {lo hi : ℕ} (hasInterp : Bool) (dT : Dtype) (hT : (Tag.mk dT false).rank ≤ hi) (tEval : List ℝ) (T : ℝ)
    (s : AState (Tagged ℝ) (Tagged (ι → ℝ))) (h : TagsIn lo hi s) :
    (taggedCheckpointDt hasInterp dT tEval s (taggedClampDt dT T s)).1.tag.rank ≤ hi ∧
      (taggedCheckpointDt hasInterp dT tEval s (taggedClampDt dT T s)).2.1.tag.rank ≤ hi := by
  have hcl : (taggedClampDt dT T s).tag.rank ≤ hi := by
    unfold taggedClampDt
    split
    · exact rank_join_le hT h.t
    · exact h.dt
  unfold taggedCheckpointDt
  split
  · split
    · split
      · exact ⟨hcl, h.dtOld⟩
      · exact ⟨rank_join_le hT h.t, hcl⟩
    · exact ⟨hcl, h.dtOld⟩
  · exact ⟨hcl, h.dtOld⟩

theorem taggedInterp_values (dT : Dtype) (dense : Tagged ℝ → Tagged (ι → ℝ)) (dense' : ℝ → ι → ℝ)
    (h : ∀ te, (dense (entry dT te)).val = dense' te) (tNew : ℝ) (rest : List ℝ) (ckpt : ℕ) (ets : List (Tagged ℝ))
    (sol : List (Tagged (ι → ℝ))) :
    interpCkpts dense' tNew rest ckpt (ets.map Tagged.val) (sol.map Tagged.val) =
      ((taggedInterpCkpts dT dense tNew rest ckpt ets sol).1, (taggedInterpCkpts dT dense tNew rest ckpt ets sol).2.1.map Tagged.val,
        (taggedInterpCkpts dT dense tNew rest ckpt ets sol).2.2.map Tagged.val) := by
  induction rest generalizing ckpt ets sol with
  | nil => rfl
  | cons te rest ih =>
    rw [interpCkpts, taggedInterpCkpts]
    split
    · rw [← ih]
      simp [h]
    · rfl

theorem taggedInterp_sol (dT : Dtype) (dense : Tagged ℝ → Tagged (ι → ℝ)) (P : Tag → Prop) (h : ∀ te, P (dense (entry dT te)).tag)
    (tNew : ℝ) (rest : List ℝ) (ckpt : ℕ) (ets : List (Tagged ℝ)) (sol : List (Tagged (ι → ℝ))) :
    ∃ ys, (taggedInterpCkpts dT dense tNew rest ckpt ets sol).2.2 = sol ++ ys ∧ ∀ y ∈ ys, P y.tag := by
  induction rest generalizing ckpt ets sol with
  | nil => exact ⟨[], by simp [taggedInterpCkpts], by simp⟩
  | cons te rest ih =>
    rw [taggedInterpCkpts]
    split
    · obtain ⟨ys, e, hys⟩ := ih (ckpt + 1) (ets ++ [⟨te, ⟨dT, true⟩⟩]) (sol ++ [dense (entry dT te)])
      refine ⟨dense (entry dT te) :: ys, by rw [e]; simp, ?_⟩
      intro y hy
      rcases List.mem_cons.1 hy with rfl | hy
      · exact h te
      · exact hys y hy
    · exact ⟨[], by simp, by simp⟩

/-- The interpolator of the loop without tags. -/
noncomputable def plainInterp (hasInterp : Bool) :
    Option (ℝ → ℝ → (ι → ℝ) → (ι → ℝ) → (ι → ℝ) → (ι → ℝ) → List (ι → ℝ) → ℝ → (ι → ℝ)) :=
  if hasInterp then some (fourthOrderDense (construct4th ℝ)) else none

theorem taggedAccept_values (hasInterp rae : Bool) (dT : Dtype) (cfg : AdaptiveCfg (Except PyErr) ℝ (ι → ℝ))
    (hi : cfg.interp = plainInterp hasInterp) (hr : cfg.returnAllEval = rae)
    (tEval : List ℝ) (s : AState (Tagged ℝ) (Tagged (ι → ℝ))) (dt : Tagged ℝ) (fNew xNew : Tagged (ι → ℝ))
    (st : List (Tagged (ι → ℝ))) :
    (taggedAccept hasInterp rae dT tEval s dt fNew xNew st).map AState.untag =
      acceptStep cfg tEval s.untag dt.val fNew.val xNew.val (st.map Tagged.val) := by
  have h1 : interpPhase cfg tEval s.untag dt.val fNew.val xNew.val (st.map Tagged.val) =
      ((if hasInterp then taggedInterpCkpts dT (fun tq => taggedDense s.t dt s.k1 fNew s.x xNew st tq) (s.t.val + dt.val)
          (tEval.drop s.ckpt) s.ckpt s.evalTimes s.sol else (s.ckpt, s.evalTimes, s.sol)).1,
        (if hasInterp then taggedInterpCkpts dT (fun tq => taggedDense s.t dt s.k1 fNew s.x xNew st tq) (s.t.val + dt.val)
          (tEval.drop s.ckpt) s.ckpt s.evalTimes s.sol else (s.ckpt, s.evalTimes, s.sol)).2.1.map Tagged.val,
        (if hasInterp then taggedInterpCkpts dT (fun tq => taggedDense s.t dt s.k1 fNew s.x xNew st tq) (s.t.val + dt.val)
          (tEval.drop s.ckpt) s.ckpt s.evalTimes s.sol else (s.ckpt, s.evalTimes, s.sol)).2.2.map Tagged.val) := by
    unfold interpPhase
    rw [hi]
    cases hasInterp with
    | false => rfl
    | true =>
      simp only [plainInterp, if_true]
      rw [← taggedInterp_values dT (fun tq => taggedDense s.t dt s.k1 fNew s.x xNew st tq)
        (fun tq => fourthOrderDense (construct4th ℝ) s.t.val dt.val s.k1.val fNew.val s.x.val xNew.val (st.map Tagged.val) tq)
        (fun te => rfl)]
      rfl
  unfold taggedAccept acceptStep
  rw [h1]
  generalize (if hasInterp then taggedInterpCkpts dT (fun tq => taggedDense s.t dt s.k1 fNew s.x xNew st tq) (s.t.val + dt.val)
          (tEval.drop s.ckpt) s.ckpt s.evalTimes s.sol else (s.ckpt, s.evalTimes, s.sol)) = q
  obtain ⟨ckpt, ets, sol⟩ := q
  simp only [bind, Except.bind]
  cases getItem (m := Except PyErr) tEval ckpt with
  | error e => rfl
  | ok te =>
    have ht : s.untag.t = s.t.val := rfl
    simp only [Except.map, pure, Except.pure, ht, hr]
    by_cases hc : s.t.val + dt.val = te ∨ rae = true
    · simp only [if_pos hc]
      congr 1
      simp [AState.untag, add_val]
    · simp only [if_neg hc]
      rfl

/-- What an accepted step appends to the states. -/
theorem taggedAccept_sol {hasInterp rae : Bool} {dT : Dtype} {tEval : List ℝ} {s s' : AState (Tagged ℝ) (Tagged (ι → ℝ))}
    {dt : Tagged ℝ} {fNew xNew : Tagged (ι → ℝ)} {st : List (Tagged (ι → ℝ))}
    (h : taggedAccept hasInterp rae dT tEval s dt fNew xNew st = .ok s') :
    s'.t = s.t + dt ∧ s'.x = xNew ∧ s'.k1 = fNew ∧
    ∃ ys zs, s'.sol = s.sol ++ ys ++ zs ∧ (zs = [] ∨ zs = [xNew]) ∧ (hasInterp = false → ys = []) ∧
      ∀ y ∈ ys, y.tag = s.x.tag.join ((((Tag.mk dT false).join s.t.tag).join ((s.t.tag.join dt.tag).join s.t.tag)).join
        (dt.tag.join s.k1.tag)) := by
  have key : ∃ ys, (if hasInterp then taggedInterpCkpts dT (fun tq => taggedDense s.t dt s.k1 fNew s.x xNew st tq) (s.t.val + dt.val)
          (tEval.drop s.ckpt) s.ckpt s.evalTimes s.sol else (s.ckpt, s.evalTimes, s.sol)).2.2 = s.sol ++ ys ∧
      (hasInterp = false → ys = []) ∧ ∀ y ∈ ys, y.tag = s.x.tag.join ((((Tag.mk dT false).join s.t.tag).join
        ((s.t.tag.join dt.tag).join s.t.tag)).join (dt.tag.join s.k1.tag)) := by
    cases hasInterp with
    | false => exact ⟨[], by simp, fun _ => rfl, by simp⟩
    | true =>
      obtain ⟨ys, e, hys⟩ := taggedInterp_sol dT (fun tq => taggedDense s.t dt s.k1 fNew s.x xNew st tq)
        (fun τ => τ = s.x.tag.join ((((Tag.mk dT false).join s.t.tag).join ((s.t.tag.join dt.tag).join s.t.tag)).join
          (dt.tag.join s.k1.tag))) (fun te => rfl) (s.t.val + dt.val) (tEval.drop s.ckpt) s.ckpt s.evalTimes s.sol
      exact ⟨ys, e, by simp, hys⟩
  unfold taggedAccept at h
  revert key h
  generalize (if hasInterp then taggedInterpCkpts dT (fun tq => taggedDense s.t dt s.k1 fNew s.x xNew st tq) (s.t.val + dt.val)
          (tEval.drop s.ckpt) s.ckpt s.evalTimes s.sol else (s.ckpt, s.evalTimes, s.sol)) = q
  obtain ⟨ckpt, ets, sol⟩ := q
  intro h key
  obtain ⟨ys, e, h1, h2⟩ := key
  dsimp only at h e
  obtain ⟨te, -, h⟩ := except_bind_ok h
  cases h
  subst e
  by_cases hc : s.t.val + dt.val = te ∨ rae = true
  · exact ⟨rfl, rfl, rfl, ys, [xNew], if_pos hc, .inr rfl, h1, h2⟩
  · refine ⟨rfl, rfl, rfl, ys, [], ?_, .inl rfl, h1, h2⟩
    rw [List.append_nil]
    exact if_neg hc

variable [Fintype ι]

/-- The configuration of the loop without tags. -/
noncomputable def plainCfg (tsit hasInterp rae : Bool) (g : ℝ → (ι → ℝ) → (ι → ℝ)) (atol rtol : ℝ) :
    AdaptiveCfg (Except PyErr) ℝ (ι → ℝ) :=
  odeintCfg (pureField g) (libSolver tsit ι Unit) () atol rtol Finset.univ (plainInterp hasInterp) rae

theorem taggedAdapt_tag {hi : ℕ} (h2 : 2 ≤ hi) (solver : Solver (Except PyErr) ℝ (ι → ℝ) Unit) (dt : Tagged ℝ) (er : ℝ)
    (h : dt.tag.rank ≤ hi) : (taggedAdapt solver dt er).tag.rank ≤ hi := by
  have hf : (Tag.mk .float32 true).rank ≤ hi := h2
  unfold taggedAdapt
  dsimp only
  split
  · exact rank_join_le h hf
  · split
    · exact rank_join_le h (rank_join_le hf (rank_join_le hf h))
    · exact rank_join_le h (rank_join_le hf (rank_join_le hf hf))

theorem taggedAdapt_dim (solver : Solver (Except PyErr) ℝ (ι → ℝ) Unit) (dt : Tagged ℝ) (er : ℝ) :
    (taggedAdapt solver dt er).tag.dim = true := by
  unfold taggedAdapt
  dsimp only
  split <;> simp [join_dim]

/-- One iteration: the values are those of the loop without tags, and the tags stay in their range. -/
theorem taggedIter_values {lo hi : ℕ} {f : Tagged ℝ → Tagged (ι → ℝ) → Except PyErr (Tagged (ι → ℝ))}
    {g : ℝ → (ι → ℝ) → (ι → ℝ)} (hf : ComputesIn lo hi f g) (tsit hasInterp rae : Bool) (d dT : Dtype)
    (hd : (Tag.mk d true).rank ≤ hi) (hT : (Tag.mk dT false).rank ≤ hi) (h2 : 2 ≤ hi) (atol rtol : ℝ) (tEval : List ℝ) (T : ℝ)
    (s : AState (Tagged ℝ) (Tagged (ι → ℝ))) (h : TagsIn lo hi s) :
    (taggedIter tsit hasInterp rae f d dT atol rtol tEval T s).map AState.untag =
      adaptiveIter (plainCfg tsit hasInterp rae g atol rtol) tEval T s.untag ∧
    ∀ s', taggedIter tsit hasInterp rae f d dT atol rtol tEval T s = .ok s' → TagsIn lo hi s' := by
  have hck := taggedDt_values hasInterp dT tEval T s
  obtain ⟨ht1, ht2⟩ := taggedDt_tags hasInterp dT hT tEval T s h
  have hisome : (plainCfg tsit hasInterp rae g atol rtol).interp.isSome = hasInterp := by
    cases hasInterp <;> rfl
  have hd0 : (Tag.mk d false).rank ≤ hi := le_trans (by cases d <;> decide) hd
  have hd1 : (Tag.mk d (!tsit)).rank ≤ hi := by cases tsit <;> assumption
  unfold taggedIter adaptiveIter
  simp only [hisome, hck]
  revert ht1 ht2
  generalize taggedCheckpointDt hasInterp dT tEval s (taggedClampDt dT T s) = q
  obtain ⟨dt, dtOld, flag⟩ := q
  intro ht1 ht2
  obtain ⟨k7, xs, err, st, hrun, i1, i2, hplain⟩ := rk7Tagged_values hf tsit d hd0 hd1
    (if tsit then constructTsit5 ℝ else constructDopri5 ℝ) s.x s.t dt s.k1 h.x h.k1 h.t ht1
  have hstep : (plainCfg tsit hasInterp rae g atol rtol).step s.untag.x s.untag.t dt.val s.untag.k1 =
      .ok (.four k7.val xs.val err.val (st.map Tagged.val)) := by
    have := hplain Unit ()
    rw [← libSolver_rk7] at this
    exact this
  have her : (plainCfg tsit hasInterp rae g atol rtol).errRatio = errorRatio Finset.univ atol rtol := rfl
  have had : ∀ dt er, (plainCfg tsit hasInterp rae g atol rtol).adapt dt er =
      adaptStep dt er (libSolver tsit ι Unit).safety (libSolver tsit ι Unit).minFactor (libSolver tsit ι Unit).maxFactor
        (libSolver tsit ι Unit).order := fun _ _ => rfl
  have hlib : (if tsit then tsit5Solver (Except PyErr) ℝ (ι → ℝ) Unit else dopri5Solver (Except PyErr) ℝ (ι → ℝ) Unit) =
      libSolver tsit ι Unit := by cases tsit <;> rfl
  have e1 : s.untag.x = s.x.val := rfl
  rw [hstep, hrun, hlib]
  simp only [bind, Except.bind, StepOut.unpack4, pure, Except.pure, her, e1]
  constructor
  · by_cases hle : errorRatio Finset.univ atol rtol s.x.val xs.val err.val ≤ 1
    · simp only [if_pos hle]
      rw [← taggedAccept_values hasInterp rae dT (plainCfg tsit hasInterp rae g atol rtol) rfl rfl tEval s dt k7 xs st]
      cases taggedAccept hasInterp rae dT tEval s dt k7 xs st with
      | error e => rfl
      | ok s' =>
        simp only [Except.map]
        cases flag <;> rfl
    · simp only [if_neg hle]
      cases flag <;> rfl
  · intro s' hs'
    have hdt' : (if flag = true then dtOld - dt else dt).tag.rank ≤ hi := by
      cases flag
      · exact ht1
      · exact rank_join_le ht2 ht1
    by_cases hle : errorRatio Finset.univ atol rtol s.x.val xs.val err.val ≤ 1
    · simp only [if_pos hle] at hs'
      cases hacc : taggedAccept hasInterp rae dT tEval s dt k7 xs st with
      | error e => rw [hacc] at hs'; cases hs'
      | ok s1 =>
        rw [hacc] at hs'
        cases hs'
        obtain ⟨a1, a2, a3, ys, zs, a4, a5, -, a6⟩ := taggedAccept_sol hacc
        refine ⟨by rw [a2]; exact i2, by rw [a3]; exact i1, by rw [a1]; exact rank_join_le h.t ht1,
          taggedAdapt_tag h2 _ _ _ hdt', ht2, ?_⟩
        intro y hy
        dsimp only at hy
        rw [a4] at hy
        rcases List.mem_append.1 hy with hy | hy
        · rcases List.mem_append.1 hy with hy | hy
          · exact h.sol y hy
          · rw [a6 y hy]
            have := h.x
            have h3 := h.t
            have h4 := h.k1
            tag_bound
        · rcases a5 with rfl | rfl
          · cases hy
          · rw [List.mem_singleton.1 hy]
            exact i2
    · simp only [if_neg hle] at hs'
      cases hs'
      exact ⟨h.x, h.k1, h.t, taggedAdapt_tag h2 _ _ _ hdt', ht2, h.sol⟩

theorem taggedLoop_values {lo hi : ℕ} {f : Tagged ℝ → Tagged (ι → ℝ) → Except PyErr (Tagged (ι → ℝ))}
    {g : ℝ → (ι → ℝ) → (ι → ℝ)} (hf : ComputesIn lo hi f g) (tsit hasInterp rae : Bool) (d dT : Dtype)
    (hd : (Tag.mk d true).rank ≤ hi) (hT : (Tag.mk dT false).rank ≤ hi) (h2 : 2 ≤ hi) (atol rtol : ℝ) (tEval : List ℝ) (T : ℝ)
    (fuel : ℕ) (s : AState (Tagged ℝ) (Tagged (ι → ℝ))) (h : TagsIn lo hi s) :
    (taggedLoop tsit hasInterp rae f d dT atol rtol tEval T fuel s).map (Option.map AState.untag) =
      adaptiveLoop (plainCfg tsit hasInterp rae g atol rtol) tEval T fuel s.untag ∧
    ∀ s', taggedLoop tsit hasInterp rae f d dT atol rtol tEval T fuel s = .ok (some s') → TagsIn lo hi s' := by
  induction fuel generalizing s with
  | zero =>
    refine ⟨rfl, fun s' hs' => ?_⟩
    cases hs'
  | succ fuel ih =>
    have ht : s.untag.t = s.t.val := rfl
    obtain ⟨i1, i2⟩ := taggedIter_values hf tsit hasInterp rae d dT hd hT h2 atol rtol tEval T s h
    rw [taggedLoop, adaptiveLoop, ht]
    split
    · simp only [bind, Except.bind]
      rw [← i1]
      cases hit : taggedIter tsit hasInterp rae f d dT atol rtol tEval T s with
      | error e => exact ⟨rfl, fun s' hs' => by cases hs'⟩
      | ok s1 => exact ih s1 (i2 s1 hit)
    · refine ⟨rfl, fun s' hs' => ?_⟩
      cases hs'
      exact h

theorem taggedInit_values {lo hi : ℕ} {f : Tagged ℝ → Tagged (ι → ℝ) → Except PyErr (Tagged (ι → ℝ))}
    {g : ℝ → (ι → ℝ) → (ι → ℝ)} (hf : ComputesIn lo hi f g) (h2 : 2 ≤ hi) (f0 x0 : Tagged (ι → ℝ)) (t0 : Tagged ℝ) (order : ℕ)
    (atol rtol : ℝ) (h0 : InR lo hi f0.tag) (hx : InR lo hi x0.tag) (ht : t0.tag.rank ≤ hi) :
    ∃ dt, taggedInitStep f f0 x0 t0 order atol rtol = .ok ⟨dt, ⟨t0.tag.dtype, false⟩⟩ ∧
      initStep (m := Except PyErr) (pureField g) f0.val x0.val t0.val order atol rtol = .ok dt := by
  have hzero : ∀ e : Dtype, (Tag.mk e false).rank ≤ hi := fun e => le_trans (by cases e <;> decide) h2
  let scale : ι → ℝ := fun i => atol + |x0.val i| * rtol
  let d0 := hairerNorm (fun i => x0.val i / scale i)
  let d1 := hairerNorm (fun i => f0.val i / scale i)
  let h : Tagged ℝ := ⟨initTrial d0 d1,
    if d0 < 1 / 10 ^ 5 ∨ d1 < 1 / 10 ^ 5 then ⟨t0.tag.dtype, false⟩
    else ⟨x0.tag.dtype.wider (f0.tag.join x0.tag).dtype, false⟩⟩
  have hh : h.tag.rank ≤ hi := by
    show (if d0 < 1 / 10 ^ 5 ∨ d1 < 1 / 10 ^ 5 then (⟨t0.tag.dtype, false⟩ : Tag)
      else ⟨x0.tag.dtype.wider (f0.tag.join x0.tag).dtype, false⟩).rank ≤ hi
    split <;> exact hzero _
  obtain ⟨τ, -, e⟩ := hf (t0 + h) (x0 + h * f0) (by simp only [add_tag]; tag_bound) (by simp only [add_tag, mul_tag]; tag_bound)
  refine ⟨_, ?_, rfl⟩
  unfold taggedInitStep
  show (f (t0 + h) (x0 + h * f0) >>= _) = _
  rw [e]
  rfl

/-- The run of `odeint` on tagged tensors beside the run without tags. -/
theorem odeintTagged_core {lo hi : ℕ} {f : Tagged ℝ → Tagged (ι → ℝ) → Except PyErr (Tagged (ι → ℝ))}
    {g : ℝ → (ι → ℝ) → (ι → ℝ)} (hf : ComputesIn lo hi f g) (h2 : 2 ≤ hi) (tsit : Bool) (fuel : ℕ) (x : Tagged (ι → ℝ)) (dT : Dtype)
    (hx : InR lo hi x.tag) (hd : (Tag.mk x.tag.dtype true).rank ≤ hi) (hT : (Tag.mk dT true).rank ≤ hi) (t0 t1 : ℝ) (rest : List ℝ)
    (atol rtol : ℝ) (ui rae : Bool) (saveAt : List ℝ) :
    ∃ f' g' ts t T k1 dt, (f' = f ∨ f' = reverseTagged f) ∧ ComputesIn lo hi f' g' ∧ dt.tag = ⟨dT, false⟩ ∧
      TagsIn lo hi (adaptiveInit k1 x dt ⟨t, ⟨dT, true⟩⟩) ∧
      odeintTagged tsit fuel f x dT (t0 :: t1 :: rest) atol rtol ui rae =
        (taggedLoop tsit (if tsit then false else ui) rae f' x.tag.dtype dT atol rtol ts T fuel
          (adaptiveInit k1 x dt ⟨t, ⟨dT, true⟩⟩) >>= taggedResult) ∧
      odeint fuel (pureField g) x.val (t0 :: t1 :: rest) (libSolver tsit ι Unit) atol rtol ui rae saveAt () Finset.univ =
        (adaptiveLoop (plainCfg tsit (if tsit then false else ui) rae g' atol rtol) ts T fuel
          (adaptiveInit k1 x dt ⟨t, ⟨dT, true⟩⟩).untag).map (Option.map fun s => (s.evalTimes, s.sol)) := by
  have hT0 : (Tag.mk dT false).rank ≤ hi := le_trans (by cases dT <;> decide) hT
  have ha : (libSolver tsit ι Unit).adaptive = true := by cases tsit <;> rfl
  have hord : (libSolver tsit ι Unit).order = 5 := by cases tsit <;> rfl
  have hlast : ∀ (l : List ℝ) (a b : ℝ), ∃ T, getItem (m := Except PyErr) (a :: b :: l) ((a :: b :: l).length - 1) = .ok T := by
    intro l a b
    have : (a :: b :: l)[(a :: b :: l).length - 1]? = some ((a :: b :: l).getLast (by simp)) := by
      rw [← List.getLast?_eq_getElem?, List.getLast?_eq_some_getLast]
    exact ⟨_, by unfold getItem; rw [this]; rfl⟩
  have hint : ∀ q : Bool, plainInterp (ι := ι) q = (if q then some (fourthOrderDense (construct4th ℝ)) else none) := fun _ => rfl
  by_cases hdir : t1 < t0
  · obtain ⟨τ, hτ, e⟩ := hf.reverse (entry dT (-t0)) x hT0 hx
    obtain ⟨dt, hdt, hdt'⟩ := taggedInit_values hf h2 ⟨-g (-(-t0)) x.val, τ⟩ x (entry dT (-t0)) 5 atol rtol hτ hx hT0
    obtain ⟨T, hlT⟩ := hlast (rest.map (fun t => -t)) (-t0) (-t1)
    refine ⟨reverseTagged f, fun t x => -g (-t) x, -t1 :: rest.map (fun t => -t), -t0, T, ⟨-g (-(-t0)) x.val, τ⟩, ⟨dt, ⟨dT, false⟩⟩,
      .inr rfl, hf.reverse, rfl, ⟨hx, hτ, hT, hT0, hT0, ?_⟩, ?_, ?_⟩
    · intro y hy
      rw [List.mem_singleton.1 hy]
      exact hx
    · unfold odeintTagged
      simp only [getItem, List.getElem?_cons_succ, List.getElem?_cons_zero, pure_bind, if_pos hdir, List.map_cons] at hlT ⊢
      rw [e]
      dsimp only [bind, Except.bind]
      dsimp only [entry] at hdt ⊢
      rw [hdt]
      dsimp only
      rw [hlT]
      rfl
    · have hk : reverseField (pureField (m := Except PyErr) g) (-t0) x.val = .ok (-g (-(-t0)) x.val) := rfl
      unfold odeint odeintDirection
      simp only [getItem, List.getElem?_cons_succ, List.getElem?_cons_zero, pure_bind, if_pos hdir, List.map_cons, ha, if_true, hk]
      rw [hord]
      dsimp only [entry] at hdt'
      simp only [bind, Except.bind, hdt']
      unfold adaptiveOdeint
      rw [hlT]
      cases tsit <;> rfl
  · obtain ⟨τ, hτ, e⟩ := hf (entry dT t0) x hT0 hx
    obtain ⟨dt, hdt, hdt'⟩ := taggedInit_values hf h2 ⟨g t0 x.val, τ⟩ x (entry dT t0) 5 atol rtol hτ hx hT0
    obtain ⟨T, hlT⟩ := hlast rest t0 t1
    refine ⟨f, g, t1 :: rest, t0, T, ⟨g t0 x.val, τ⟩, ⟨dt, ⟨dT, false⟩⟩,
      .inl rfl, hf, rfl, ⟨hx, hτ, hT, hT0, hT0, ?_⟩, ?_, ?_⟩
    · intro y hy
      rw [List.mem_singleton.1 hy]
      exact hx
    · unfold odeintTagged
      simp only [getItem, List.getElem?_cons_succ, List.getElem?_cons_zero, pure_bind, if_neg hdir] at hlT ⊢
      rw [e]
      dsimp only [bind, Except.bind]
      dsimp only [entry] at hdt ⊢
      rw [hdt]
      dsimp only
      rw [hlT]
      rfl
    · have hk : pureField (m := Except PyErr) g t0 x.val = .ok (g t0 x.val) := rfl
      unfold odeint odeintDirection
      simp only [getItem, List.getElem?_cons_succ, List.getElem?_cons_zero, pure_bind, if_neg hdir, ha, if_true, hk]
      rw [hord]
      dsimp only [entry] at hdt'
      simp only [bind, Except.bind, hdt']
      unfold adaptiveOdeint
      rw [hlT]
      cases tsit <;> rfl

/-! ### C140 -/

theorem join_self (a : Tag) : a.join a = a := rank_inj (by rw [rank_join, max_self])

theorem stackTagged_same {V : Type} (D : Tag) (sol : List (Tagged V)) (h : ∀ y ∈ sol, y.tag = D) :
    stackTagged sol = .ok (sol.map (fun y => ⟨y.val, D⟩)) := by
  cases sol with
  | nil => rfl
  | cons y ys =>
    have hy := h y (by simp)
    have hys : ∀ z ∈ ys, z.tag = D := fun z hz => h z (by simp [hz])
    have hall : ys.all (fun z => z.tag.dim == y.tag.dim) = true := by
      rw [List.all_eq_true]
      intro z hz
      rw [hys z hz, hy]
      simp
    have hfold : ∀ l : List (Tagged V), (∀ z ∈ l, z.tag = D) → l.foldl (fun a z => a.join z.tag) D = D := by
      intro l
      induction l with
      | nil => intro _; rfl
      | cons z l ih =>
        intro hl
        rw [List.foldl_cons, hl z (by simp), join_self]
        exact ih (fun w hw => hl w (by simp [hw]))
    unfold stackTagged
    dsimp only
    rw [if_pos hall, hy, hfold ys hys]

theorem stackTagged_dim {V : Type} (sol : List (Tagged V)) (h : ∀ y ∈ sol, y.tag.dim = true) :
    (stackTagged sol).map (fun l => l.map Tagged.val) = .ok (sol.map Tagged.val) := by
  cases sol with
  | nil => rfl
  | cons y ys =>
    have hall : ys.all (fun z => z.tag.dim == y.tag.dim) = true := by
      rw [List.all_eq_true]
      intro z hz
      rw [h z (by simp [hz]), h y (by simp)]
      simp
    unfold stackTagged
    dsimp only
    rw [if_pos hall]
    simp [Except.map, Function.comp_def]

/-- **C140 (partial: the type of the grid is not wider than that of the state, and the state has an axis; see
`C140_float64_refuted` and `C140_scalar_refuted`).** With `dopri5` and `tsit5`, a field that maps states of type `d` to values of
type `d` — and may raise on states of another type, as a network does — is integrated as without types: on every grid, in both
directions, with and without interpolation, the same times, the same states, of type `d`, or the same exception. -/
theorem C140_types_partial (tsit : Bool) (fuel : ℕ) (d dT : Dtype) (f : Tagged ℝ → Tagged (ι → ℝ) → Except PyErr (Tagged (ι → ℝ)))
    (g : ℝ → (ι → ℝ) → (ι → ℝ)) (hT : dT = .float64 → d = .float64)
    (hf : ∀ t y, NoWiden d t.tag → y.tag = ⟨d, true⟩ → f t y = .ok ⟨g t.val y.val, ⟨d, true⟩⟩)
    (x : ι → ℝ) (tSpan : List ℝ) (atol rtol : ℝ) (ui rae : Bool) (saveAt : List ℝ) :
    odeintTagged tsit fuel f ⟨x, ⟨d, true⟩⟩ dT tSpan atol rtol ui rae =
      (odeint fuel (pureField g) x tSpan (libSolver tsit ι Unit) atol rtol ui rae saveAt () Finset.univ).map
        (Option.map fun r => (r.1, r.2.map fun v => ⟨v, ⟨d, true⟩⟩)) := by
  rcases tSpan with _ | ⟨t0, _ | ⟨t1, rest⟩⟩
  · rfl
  · rfl
  set D : Tag := ⟨d, true⟩ with hD
  have hrank : ∀ a : Tag, a.rank ≤ D.rank → NoWiden d a := by
    intro a
    rw [hD]
    obtain ⟨_ | _, _ | _⟩ := a <;> cases d <;> simp [Tag.rank, NoWiden]
  have hC : ComputesIn D.rank D.rank f g := by
    intro t y ht hy
    have hyD : y.tag = D := rank_inj (le_antisymm hy.2 hy.1)
    exact ⟨D, ⟨le_refl _, le_refl _⟩, hf t y (hrank _ ht) hyD⟩
  have h2 : 2 ≤ D.rank := two_le_rank.2 rfl
  have hTr : (Tag.mk dT true).rank ≤ D.rank := by
    rw [hD]
    cases dT <;> cases d <;> first | decide | (exfalso; revert hT; decide)
  obtain ⟨f', g', ts, t, T, k1, dt, -, hC', -, hin, e1, e2⟩ := odeintTagged_core hC h2 tsit fuel ⟨x, D⟩ dT ⟨le_refl _, le_refl _⟩
    (le_refl _) hTr t0 t1 rest atol rtol ui rae saveAt
  have hT0 : (Tag.mk dT false).rank ≤ D.rank := le_trans (by cases dT <;> decide) hTr
  obtain ⟨i1, i2⟩ := taggedLoop_values hC' tsit (if tsit then false else ui) rae d dT (le_refl _) hT0 h2 atol rtol ts T fuel _ hin
  rw [e1, e2, ← i1]
  show (taggedLoop tsit (if tsit then false else ui) rae f' d dT atol rtol ts T fuel _ >>= taggedResult) = _
  cases hrun : taggedLoop tsit (if tsit then false else ui) rae f' d dT atol rtol ts T fuel
      (adaptiveInit k1 (⟨x, D⟩ : Tagged (ι → ℝ)) dt ⟨t, ⟨dT, true⟩⟩) with
  | error e => rfl
  | ok r =>
    cases r with
    | none => rfl
    | some s' =>
      have := (i2 s' hrun).sol
      show taggedResult (some s') = _
      unfold taggedResult
      dsimp only
      rw [stackTagged_same D s'.sol (fun y hy => rank_inj (le_antisymm (this y hy).2 (this y hy).1))]
      simp [Except.map, AState.untag, Function.comp_def]

/-- **C140**, values: whatever the types, a field that computes `g` on tensors with an axis (whatever the types of its arguments and
values) gives the times and states of the run without types. -/
theorem C140_values (tsit : Bool) (fuel : ℕ) (d dT : Dtype) (f : Tagged ℝ → Tagged (ι → ℝ) → Except PyErr (Tagged (ι → ℝ)))
    (g : ℝ → (ι → ℝ) → (ι → ℝ))
    (hf : ∀ t y, y.tag.dim = true → ∃ e : Dtype, f t y = .ok ⟨g t.val y.val, ⟨e, true⟩⟩)
    (x : ι → ℝ) (tSpan : List ℝ) (atol rtol : ℝ) (ui rae : Bool) (saveAt : List ℝ) :
    (odeintTagged tsit fuel f ⟨x, ⟨d, true⟩⟩ dT tSpan atol rtol ui rae).map (Option.map fun r => (r.1, r.2.map Tagged.val)) =
      odeint fuel (pureField g) x tSpan (libSolver tsit ι Unit) atol rtol ui rae saveAt () Finset.univ := by
  rcases tSpan with _ | ⟨t0, _ | ⟨t1, rest⟩⟩
  · rfl
  · rfl
  have hC : ComputesIn 2 3 f g := by
    intro t y ht hy
    obtain ⟨e, he⟩ := hf t y (two_le_rank.1 hy.1)
    exact ⟨⟨e, true⟩, ⟨two_le_rank.2 rfl, rank_le _⟩, he⟩
  obtain ⟨f', g', ts, t, T, k1, dt, -, hC', -, hin, e1, e2⟩ := odeintTagged_core hC (by norm_num) tsit fuel ⟨x, ⟨d, true⟩⟩ dT
    ⟨two_le_rank.2 rfl, rank_le _⟩ (rank_le _) (rank_le _) t0 t1 rest atol rtol ui rae saveAt
  obtain ⟨i1, i2⟩ := taggedLoop_values hC' tsit (if tsit then false else ui) rae d dT (rank_le _) (rank_le _) (by norm_num) atol rtol ts T
    fuel _ hin
  rw [e1, e2, ← i1]
  show Except.map _ (taggedLoop tsit (if tsit then false else ui) rae f' d dT atol rtol ts T fuel _ >>= taggedResult) = _
  cases hrun : taggedLoop tsit (if tsit then false else ui) rae f' d dT atol rtol ts T fuel
      (adaptiveInit k1 (⟨x, ⟨d, true⟩⟩ : Tagged (ι → ℝ)) dt ⟨t, ⟨dT, true⟩⟩) with
  | error e => rfl
  | ok r =>
    cases r with
    | none => rfl
    | some s' =>
      have := stackTagged_dim s'.sol (fun y hy => two_le_rank.1 ((i2 s' hrun).sol y hy).1)
      show Except.map _ (taggedResult (some s')) = _
      unfold taggedResult
      dsimp only
      cases hst : stackTagged s'.sol with
      | error e => rw [hst] at this; cases this
      | ok l =>
        rw [hst] at this
        have hl : l.map Tagged.val = s'.sol.map Tagged.val := Except.ok.inj this
        show Except.ok (some (s'.evalTimes.map Tagged.val, l.map Tagged.val)) = _
        rw [hl]
        rfl

/-- **C140 is false** when the grid has a wider type than the state. A `float32` state, a `float64` grid (`torch.linspace(0, 1, 10,
dtype=torch.float64)`, or one made from a numpy array) and a field of `float32` weights, which raises on `float64` states: if the
first step reaches the second time of the grid, `dopri5` and `tsit5` raise — `dt = t_eval[0] - t` is a `float64` tensor of shape `(1,)`, and
`x + dt * a[0] * k1` is of type `float64`. With a `float32` grid the same call is the run without types (`C140_types_partial`), and the
fixed-step solvers accept both grids (`C140_fixed`). -/
theorem C140_float64_refuted (tsit : Bool) (fuel : ℕ) (f : Tagged ℝ → Tagged (ι → ℝ) → Except PyErr (Tagged (ι → ℝ)))
    (g : ℝ → (ι → ℝ) → (ι → ℝ)) (hf : ∀ t y, y.tag = ⟨.float32, true⟩ → f t y = .ok ⟨g t.val y.val, ⟨.float32, true⟩⟩)
    (err : PyErr) (hraise : ∀ t y, y.tag.dtype = .float64 → f t y = .error err) (x : ι → ℝ) (atol rtol : ℝ) (rae : Bool)
    (t0 t1 dt : ℝ) (rest : List ℝ) (hinc : Increasing (t0 :: t1 :: rest))
    (hdt : initStep (m := Except PyErr) (pureField g) (g t0 x) x t0 5 atol rtol = .ok dt) (h1 : t1 < t0 + dt) :
    odeintTagged tsit (fuel + 1) f ⟨x, ⟨.float32, true⟩⟩ .float64 (t0 :: t1 :: rest) atol rtol false rae = .error err := by
  have h01 : t0 < t1 := (List.pairwise_cons.1 hinc).1 t1 (by simp)
  -- the last time
  obtain ⟨T, hT, hT1⟩ : ∃ T, getItem (m := Except PyErr) (t0 :: t1 :: rest) ((t0 :: t1 :: rest).length - 1) = .ok T ∧ t0 < T := by
    have hl : (t0 :: t1 :: rest)[(t0 :: t1 :: rest).length - 1]? = some ((t0 :: t1 :: rest).getLast (by simp)) := by
      rw [← List.getLast?_eq_getElem?, List.getLast?_eq_some_getLast]
    refine ⟨_, by unfold getItem; rw [hl]; rfl, ?_⟩
    rw [List.getLast_cons (by simp)]
    exact (List.pairwise_cons.1 hinc).1 _ (List.getLast_mem _)
  have hinit : taggedInitStep f ⟨g t0 x, ⟨.float32, true⟩⟩ ⟨x, ⟨.float32, true⟩⟩ (entry .float64 t0) 5 atol rtol =
      .ok ⟨dt, ⟨.float64, false⟩⟩ := by
    have hdt' : initStep (m := Except PyErr) (pureField g) (g t0 x) x t0 5 atol rtol = .ok _ := rfl
    have hval := Except.ok.inj (hdt'.symm.trans hdt)
    unfold taggedInitStep
    have hxt : ∀ h : Tagged ℝ, h.tag.dim = false →
        ((⟨x, ⟨.float32, true⟩⟩ : Tagged (ι → ℝ)) + h * (⟨g t0 x, ⟨.float32, true⟩⟩ : Tagged (ι → ℝ))).tag = ⟨.float32, true⟩ := by
      intro h hh
      rw [add_tag, mul_tag]
      obtain ⟨v, ⟨_ | _, _ | _⟩⟩ := h <;> first | rfl | cases hh
    dsimp only
    rw [hf _ _ (hxt _ (by dsimp only; split <;> rfl)), ← hval]
    rfl
  unfold odeintTagged
  simp only [getItem, List.getElem?_cons_succ, List.getElem?_cons_zero, pure_bind, if_neg (not_lt.2 h01.le)] at hT ⊢
  rw [hf _ _ rfl]
  dsimp only [bind, Except.bind]
  have he : (entry Dtype.float64 t0).val = t0 := rfl
  rw [he, hinit]
  dsimp only
  rw [hT]
  dsimp only
  rw [taggedLoop]
  rw [if_pos (show (adaptiveInit (⟨g t0 x, ⟨.float32, true⟩⟩ : Tagged (ι → ℝ)) ⟨x, ⟨.float32, true⟩⟩ (⟨dt, ⟨.float64, false⟩⟩ : Tagged ℝ)
    ⟨t0, ⟨.float64, true⟩⟩).t.val < T from hT1)]
  have hi : (if tsit then false else false) = false := by simp
  rw [hi]
  -- the step size has been reset
  have htag : (taggedCheckpointDt false .float64 ((t0 :: t1 :: rest).drop 1) (adaptiveInit (⟨g t0 x, ⟨.float32, true⟩⟩ : Tagged (ι → ℝ))
      ⟨x, ⟨.float32, true⟩⟩ (⟨dt, ⟨.float64, false⟩⟩ : Tagged ℝ) ⟨t0, ⟨.float64, true⟩⟩) (taggedClampDt .float64 T
        (adaptiveInit (⟨g t0 x, ⟨.float32, true⟩⟩ : Tagged (ι → ℝ)) ⟨x, ⟨.float32, true⟩⟩ (⟨dt, ⟨.float64, false⟩⟩ : Tagged ℝ)
          ⟨t0, ⟨.float64, true⟩⟩))).1.tag = ⟨.float64, true⟩ := by
    unfold taggedCheckpointDt taggedClampDt
    dsimp only [adaptiveInit, List.drop_succ_cons, List.drop_zero, List.getElem?_cons_zero]
    by_cases hc : T < t0 + dt
    · simp only [hc, if_true]
      split
      · split <;> rfl
      · rfl
    · simp only [hc, if_false]
      show (if t1 < t0 + dt then _ else _ : Tagged ℝ × Tagged ℝ × Bool).1.tag = _
      rw [if_pos h1]
      rfl
  unfold taggedIter
  revert htag
  generalize taggedCheckpointDt false .float64 ((t0 :: t1 :: rest).drop 1) (adaptiveInit (⟨g t0 x, ⟨.float32, true⟩⟩ : Tagged (ι → ℝ))
      ⟨x, ⟨.float32, true⟩⟩ (⟨dt, ⟨.float64, false⟩⟩ : Tagged ℝ) ⟨t0, ⟨.float64, true⟩⟩) (taggedClampDt .float64 T
        (adaptiveInit (⟨g t0 x, ⟨.float32, true⟩⟩ : Tagged (ι → ℝ)) ⟨x, ⟨.float32, true⟩⟩ (⟨dt, ⟨.float64, false⟩⟩ : Tagged ℝ)
          ⟨t0, ⟨.float64, true⟩⟩)) = q
  obtain ⟨q1, q2, q3⟩ := q
  intro htag
  dsimp only at htag ⊢
  have hstep : ∀ tab : Tableau ℝ, rk7Tagged tsit .float32 tab f ⟨x, ⟨.float32, true⟩⟩ (⟨t0, ⟨.float64, true⟩⟩ : Tagged ℝ) q1
      ⟨g t0 x, ⟨.float32, true⟩⟩ = .error err := by
    intro tab
    unfold rk7Tagged
    dsimp only
    rw [hraise _ _ (by simp only [add_tag, mul_tag, htag]; cases tsit <;> rfl)]
    rfl
  rw [show (adaptiveInit (⟨g t0 x, ⟨.float32, true⟩⟩ : Tagged (ι → ℝ)) ⟨x, ⟨.float32, true⟩⟩ (⟨dt, ⟨.float64, false⟩⟩ : Tagged ℝ)
    ⟨t0, ⟨.float64, true⟩⟩).x = ⟨x, ⟨.float32, true⟩⟩ from rfl,
    show (adaptiveInit (⟨g t0 x, ⟨.float32, true⟩⟩ : Tagged (ι → ℝ)) ⟨x, ⟨.float32, true⟩⟩ (⟨dt, ⟨.float64, false⟩⟩ : Tagged ℝ)
    ⟨t0, ⟨.float64, true⟩⟩).t = ⟨t0, ⟨.float64, true⟩⟩ from rfl,
    show (adaptiveInit (⟨g t0 x, ⟨.float32, true⟩⟩ : Tagged (ι → ℝ)) ⟨x, ⟨.float32, true⟩⟩ (⟨dt, ⟨.float64, false⟩⟩ : Tagged ℝ)
    ⟨t0, ⟨.float64, true⟩⟩).k1 = ⟨g t0 x, ⟨.float32, true⟩⟩ from rfl, hstep]
  rfl

/-- The value of the field has an axis whenever its argument has. -/
def KeepsAxis {K V : Type} (f : Tagged K → Tagged V → Except PyErr (Tagged V)) : Prop :=
  ∀ t x y, f t x = .ok y → x.tag.dim = true → y.tag.dim = true

theorem KeepsAxis.reverse {K V : Type} [Neg K] [Neg V] {f : Tagged K → Tagged V → Except PyErr (Tagged V)} (h : KeepsAxis f) :
    KeepsAxis (reverseTagged f) := by
  intro t x y e hx
  unfold reverseTagged at e
  cases hf : f (-t) x with
  | error e' => rw [hf] at e; cases e
  | ok z =>
    rw [hf] at e
    cases e
    exact h (-t) x z hf hx

/-- The new state has an axis if the state or the step size has, and always with `dopri5`. -/
theorem rk7Tagged_dim {K V : Type} [Field K] [AddCommGroup V] [Module K V] {f : Tagged K → Tagged V → Except PyErr (Tagged V)}
    (hf : KeepsAxis f) {tsit : Bool} {d : Dtype} {tab : Tableau K} {x : Tagged V} {t dt : Tagged K} {k1 k7 xs err : Tagged V}
    {st : List (Tagged V)} (h : rk7Tagged tsit d tab f x t dt k1 = .ok (.four k7 xs err st))
    (hor : tsit = true → x.tag.dim = true ∨ dt.tag.dim = true) : xs.tag.dim = true := by
  unfold rk7Tagged at h
  obtain ⟨k2, e2, h⟩ := except_bind_ok h
  obtain ⟨k3, e3, h⟩ := except_bind_ok h
  obtain ⟨k4, e4, h⟩ := except_bind_ok h
  obtain ⟨k5, e5, h⟩ := except_bind_ok h
  obtain ⟨k6, e6, h⟩ := except_bind_ok h
  obtain ⟨k7', e7, h⟩ := except_bind_ok h
  cases h
  simp only [add_tag, mul_tag, entry_tag, join_dim]
  cases tsit with
  | true => rcases hor rfl with h | h <;> simp [h]
  | false =>
    have := hf _ _ _ e2 (by simp [add_tag, mul_tag, join_dim])
    simp [this]

/-- The states saved in a run that starts with a zero-dimensional state. -/
structure AxisAppears (tsit : Bool) (s : AState (Tagged ℝ) (Tagged (ι → ℝ))) : Prop where
  t : s.t.tag.dim = true
  head : ∃ x0 ys, s.sol = x0 :: ys ∧ x0.tag.dim = false
  dopri : tsit = false → ∀ y ∈ s.sol.drop 1, y.tag.dim = true
  dt : s.sol.length ≤ 1 ∨ s.dt.tag.dim = true
  tsitou : ∀ y ∈ s.sol.drop 2, y.tag.dim = true

theorem mem_drop_append {α : Type} {n : ℕ} {l m : List α} {y : α} (h : y ∈ (l ++ m).drop n) : y ∈ l.drop n ∨ y ∈ m := by
  rw [List.drop_append] at h
  rcases List.mem_append.1 h with h | h
  · exact .inl h
  · exact .inr (List.mem_of_mem_drop h)

theorem taggedDt_dim (hasInterp : Bool) (dT : Dtype) (tEval : List ℝ) (T : ℝ) (s : AState (Tagged ℝ) (Tagged (ι → ℝ)))
    (h : s.dt.tag.dim = true) (ht : s.t.tag.dim = true) :
    (taggedCheckpointDt hasInterp dT tEval s (taggedClampDt dT T s)).1.tag.dim = true := by
  have hc : (taggedClampDt dT T s).tag.dim = true := by
    unfold taggedClampDt
    split
    · simp [sub_tag, join_dim, ht]
    · exact h
  unfold taggedCheckpointDt
  split
  · split
    · split
      · exact hc
      · simp [sub_tag, join_dim, ht]
    · exact hc
  · exact hc

theorem taggedIter_axis {f : Tagged ℝ → Tagged (ι → ℝ) → Except PyErr (Tagged (ι → ℝ))} (hf : KeepsAxis f) (tsit hasInterp rae : Bool)
    (hi : tsit = true → hasInterp = false) (d dT : Dtype) (atol rtol : ℝ) (tEval : List ℝ) (T : ℝ)
    (s s' : AState (Tagged ℝ) (Tagged (ι → ℝ))) (h : AxisAppears tsit s)
    (hs : taggedIter tsit hasInterp rae f d dT atol rtol tEval T s = .ok s') : AxisAppears tsit s' := by
  have hdim := taggedDt_dim hasInterp dT tEval T s
  unfold taggedIter at hs
  revert hdim hs
  generalize taggedCheckpointDt hasInterp dT tEval s (taggedClampDt dT T s) = q
  obtain ⟨dt, dtOld, flag⟩ := q
  intro hs hdim
  dsimp only at hdim hs
  obtain ⟨out, hout, hs⟩ := except_bind_ok hs
  obtain ⟨⟨fNew, xNew, xErr, stages⟩, hun, -⟩ := except_bind_ok hs
  have hout' : out = .four fNew xNew xErr stages := by
    cases out with
    | four a b c e =>
      cases hun
      rfl
    | _ => cases hun
  subst hout'
  generalize (if tsit then tsit5Solver (Except PyErr) ℝ (ι → ℝ) Unit else dopri5Solver (Except PyErr) ℝ (ι → ℝ) Unit) = sv at hs
  by_cases hle : errorRatio Finset.univ atol rtol s.x.val xNew.val xErr.val ≤ 1
  · simp only [StepOut.unpack4, pure_bind, if_pos hle] at hs
    obtain ⟨s1, hs1, hs⟩ := except_bind_ok hs
    cases hs
    obtain ⟨a1, a2, a3, ys, zs, a4, a5, a6, a7⟩ := taggedAccept_sol hs1
    obtain ⟨x0, l, hsol, hx0⟩ := h.head
    have hys : ∀ y ∈ ys, y.tag.dim = true := by
      intro y hy
      rw [a7 y hy]
      simp [join_dim, h.t]
    refine ⟨by rw [show _ = s1.t from rfl, a1, add_tag, join_dim, h.t]; rfl, ⟨x0, l ++ ys ++ zs, ?_, hx0⟩, ?_,
      .inr (taggedAdapt_dim _ _ _), ?_⟩
    · show s1.sol = _
      rw [a4, hsol]
      simp
    · intro ht y hy
      rw [show _ = s1.sol from rfl, a4] at hy
      rcases mem_drop_append hy with hy | hy
      · rcases mem_drop_append hy with hy | hy
        · exact h.dopri ht y hy
        · exact hys y hy
      · rcases a5 with rfl | rfl
        · cases hy
        · rw [List.mem_singleton.1 hy]
          exact rk7Tagged_dim hf hout (by rw [ht]; simp)
    · intro y hy
      rw [show _ = s1.sol from rfl, a4] at hy
      by_cases hts : tsit = true
      · rw [a6 (hi hts), List.append_nil] at hy
        rcases h.dt with hl | hl
        · have : (s.sol ++ zs).drop 2 = [] := by
            rw [List.drop_eq_nil_iff, List.length_append]
            rcases a5 with rfl | rfl
            · simp; omega
            · simp; omega
          rw [this] at hy
          cases hy
        · rcases mem_drop_append hy with hy | hy
          · exact h.tsitou y hy
          · rcases a5 with rfl | rfl
            · cases hy
            · rw [List.mem_singleton.1 hy]
              exact rk7Tagged_dim hf hout (fun _ => .inr (hdim hl h.t))
      · rcases mem_drop_append hy with hy | hy
        · rcases mem_drop_append hy with hy | hy
          · exact h.tsitou y hy
          · exact hys y hy
        · rcases a5 with rfl | rfl
          · cases hy
          · rw [List.mem_singleton.1 hy]
            exact rk7Tagged_dim hf hout (fun h => absurd h hts)
  · simp only [StepOut.unpack4, pure_bind, if_neg hle] at hs
    cases hs
    exact ⟨h.t, h.head, h.dopri, .inr (taggedAdapt_dim _ _ _), h.tsitou⟩

theorem taggedLoop_axis {f : Tagged ℝ → Tagged (ι → ℝ) → Except PyErr (Tagged (ι → ℝ))} (hf : KeepsAxis f) (tsit hasInterp rae : Bool)
    (hi : tsit = true → hasInterp = false) (d dT : Dtype) (atol rtol : ℝ) (tEval : List ℝ) (T : ℝ) (fuel : ℕ)
    (s s' : AState (Tagged ℝ) (Tagged (ι → ℝ))) (h : AxisAppears tsit s)
    (hs : taggedLoop tsit hasInterp rae f d dT atol rtol tEval T fuel s = .ok (some s')) : AxisAppears tsit s' := by
  induction fuel generalizing s with
  | zero => cases hs
  | succ fuel ih =>
    rw [taggedLoop] at hs
    split at hs
    · obtain ⟨s1, h1, hs⟩ := except_bind_ok hs
      exact ih s1 (taggedIter_axis hf tsit hasInterp rae hi d dT atol rtol tEval T s s1 h h1) hs
    · cases hs
      exact h

/-- **C140 is false** of zero-dimensional states (`torch.tensor(1.0)`). The field keeps the axes of its argument; the run without axes
returns. Then `dopri5` raises `RuntimeError` at `torch.stack(sol)` on every increasing grid, with and without interpolation, and `tsit5` on
every increasing grid of three or more times: the new state has shape `(1,)` (from `a[0]`, or from `dt`), the initial state has none. -/
theorem C140_scalar_refuted (tsit : Bool) (fuel : ℕ) (d dT : Dtype) (f : Tagged ℝ → Tagged (ι → ℝ) → Except PyErr (Tagged (ι → ℝ)))
    (g : ℝ → (ι → ℝ) → (ι → ℝ)) (hf : ∀ t y, ∃ τ : Tag, f t y = .ok ⟨g t.val y.val, τ⟩ ∧ (y.tag.dim = true → τ.dim = true))
    (x : ι → ℝ) (t0 t1 : ℝ) (rest : List ℝ) (hinc : Increasing (t0 :: t1 :: rest)) (h3 : tsit = true → rest ≠ []) (atol rtol : ℝ)
    (ui : Bool) (saveAt : List ℝ) (r : List ℝ × List (ι → ℝ))
    (hr : odeint fuel (pureField g) x (t0 :: t1 :: rest) (libSolver tsit ι Unit) atol rtol ui false saveAt () Finset.univ =
      .ok (some r)) :
    odeintTagged tsit fuel f ⟨x, ⟨d, false⟩⟩ dT (t0 :: t1 :: rest) atol rtol ui false = .error .runtimeError := by
  have hC : ComputesIn 0 3 f g := by
    intro t y _ _
    obtain ⟨τ, e, -⟩ := hf t y
    exact ⟨τ, ⟨Nat.zero_le _, rank_le _⟩, e⟩
  have hK : KeepsAxis f := by
    intro t y z e hy
    obtain ⟨τ, e', h⟩ := hf t y
    rw [e'] at e
    cases e
    exact h hy
  obtain ⟨r', hr', hlen⟩ := C21_times (libSolver_fsal tsit ()) g x t0 t1 rest hinc atol rtol ui saveAt Finset.univ fuel
  rw [hr] at hr'
  cases hr'
  obtain ⟨hts, hl, -⟩ := hlen r.1 r.2 rfl
  obtain ⟨f', g', ts, t, T, k1, dt, hfor, hC', -, hin, e1, e2⟩ := odeintTagged_core hC (by norm_num) tsit fuel ⟨x, ⟨d, false⟩⟩ dT
    ⟨Nat.zero_le _, rank_le _⟩ (rank_le _) (rank_le _) t0 t1 rest atol rtol ui false saveAt
  obtain ⟨i1, -⟩ := taggedLoop_values hC' tsit (if tsit then false else ui) false d dT (rank_le _) (rank_le _) (by norm_num) atol rtol ts T
    fuel _ hin
  rw [hr, ← i1] at e2
  rw [e1]
  have hK' : KeepsAxis f' := by
    rcases hfor with rfl | rfl
    · exact hK
    · exact hK.reverse
  have haxis := taggedLoop_axis hK' tsit (if tsit then false else ui) false (fun h => by rw [h]; rfl) d dT atol rtol ts T fuel
    (adaptiveInit k1 (⟨x, ⟨d, false⟩⟩ : Tagged (ι → ℝ)) dt ⟨t, ⟨dT, true⟩⟩)
  show (taggedLoop tsit (if tsit then false else ui) false f' d dT atol rtol ts T fuel
    (adaptiveInit k1 (⟨x, ⟨d, false⟩⟩ : Tagged (ι → ℝ)) dt ⟨t, ⟨dT, true⟩⟩) >>= taggedResult) = _
  revert e2 haxis
  generalize taggedLoop tsit (if tsit then false else ui) false f' d dT atol rtol ts T fuel
    (adaptiveInit k1 (⟨x, ⟨d, false⟩⟩ : Tagged (ι → ℝ)) dt ⟨t, ⟨dT, true⟩⟩) = o
  intro e2 haxis
  rcases o with e | _ | s'
  · cases e2
  · cases e2
  have hax := haxis s' ⟨rfl, ⟨_, [], rfl, rfl⟩, by simp [adaptiveInit], .inl (by simp [adaptiveInit]), by simp [adaptiveInit]⟩ rfl
  have hsl : s'.sol.length = rest.length + 2 := by
    have : r.2 = s'.untag.sol := congrArg Prod.snd (Option.some.inj (Except.ok.inj e2))
    have h1 : s'.untag.sol.length = s'.sol.length := by simp [AState.untag]
    rw [← h1, ← this, hl, hts]
    simp
  obtain ⟨x0, ys, hsol, hx0⟩ := hax.head
  have hys : ∃ y ∈ ys, y.tag.dim = true := by
    rw [hsol, List.length_cons] at hsl
    cases tsit with
    | false =>
      have := hax.dopri rfl
      rw [hsol, List.drop_one, List.tail_cons] at this
      cases ys with
      | nil => simp at hsl
      | cons y ys => exact ⟨y, by simp, this y (by simp)⟩
    | true =>
      have := hax.tsitou
      rw [hsol, List.drop_succ_cons] at this
      have hrl := List.length_pos_iff.2 (h3 rfl)
      rcases ys with _ | ⟨y, _ | ⟨z, zs⟩⟩
      · simp at hsl
      · simp only [List.length_cons, List.length_nil] at hsl
        omega
      · exact ⟨z, by simp, this z (by simp)⟩
  obtain ⟨y, hy, hyd⟩ := hys
  show taggedResult (some s') = _
  unfold taggedResult stackTagged
  dsimp only
  rw [hsol]
  dsimp only
  rw [if_neg]
  · rfl
  · rw [List.all_eq_true]
    intro hall
    have := hall y hy
    rw [hyd, hx0] at this
    cases this

end adaptive

section fixed

variable {K V : Type} [Field K] [LinearOrder K] [AddCommGroup V] [Module K V]

theorem join_zero (a : Tag) (d : Dtype) (h : a.dim = false) : a.join ⟨d, true⟩ = ⟨d, true⟩ := by
  obtain ⟨_ | _, _ | _⟩ := a <;> cases d <;> first | rfl | cases h

theorem taggedStep_commutes (method : FixedMethod) (d dT : Dtype) (f : Tagged K → Tagged V → Except PyErr (Tagged V)) (g : K → V → V)
    (hf : ∀ t y, t.tag.dim = false → y.tag = ⟨d, true⟩ → f t y = .ok ⟨g t.val y.val, ⟨d, true⟩⟩) :
    StepCommutes (fun v => (⟨v, ⟨d, true⟩⟩ : Tagged V))
      (fun x t dt => (method.solver V Unit).step (pureField g) x t dt none ())
      (fun x t dt => method.taggedStep d f x (entry dT t) (entry dT dt)) := by
  intro x t dt
  have h1 : ∀ (c : Tagged K) (v : V), c.tag.dim = false →
      c * (⟨v, ⟨d, true⟩⟩ : Tagged V) = ⟨c.val • v, ⟨d, true⟩⟩ := by
    intro c v hc
    show Tagged.mk _ _ = _
    rw [join_zero _ _ hc]
  have h2 : ∀ v w : V, (⟨v, ⟨d, true⟩⟩ : Tagged V) + ⟨w, ⟨d, true⟩⟩ = ⟨v + w, ⟨d, true⟩⟩ := by
    intro v w
    show Tagged.mk _ _ = _
    rw [join_self]
  have h3 : ∀ (c : K) (v : V), (⟨c, ⟨d, true⟩⟩ : Tagged K) * (⟨v, ⟨d, true⟩⟩ : Tagged V) = ⟨c • v, ⟨d, true⟩⟩ := by
    intro c v
    show Tagged.mk _ _ = _
    rw [join_self]
  have h4 : ∀ (t : Tagged K) (v : V), t.tag.dim = false → f t ⟨v, ⟨d, true⟩⟩ = .ok ⟨g t.val v, ⟨d, true⟩⟩ :=
    fun t v ht => hf t ⟨v, ⟨d, true⟩⟩ ht rfl
  have e1 : ∀ c : K, (entry dT c).tag.dim = false := fun _ => rfl
  have e2 : ∀ c : K, (entry d c).tag.dim = false := fun _ => rfl
  have e3 : ∀ c : K, (half (entry dT c)).tag.dim = false := fun _ => rfl
  have e4 : ∀ a b : K, (entry dT a + half (entry dT b)).tag.dim = false := fun _ _ => by simp [add_tag, join_dim, half_tag, entry_tag]
  have e5 : ∀ a b c : K, (entry dT a + entry d b * entry dT c).tag.dim = false := fun _ _ _ => by
    simp [add_tag, mul_tag, join_dim, entry_tag]
  cases method with
  | euler =>
    simp only [FixedMethod.solver, eulerSolver, eulerStep, firstStage, FixedMethod.taggedStep, eulerTagged, pureField, bind, Except.bind,
      pure, Except.pure]
    simp only [h4 _ _ (e1 _), h1 _ _ (e1 _), h2, StepOut.unpack3, pure, Except.pure, Except.map, entry_val]
  | midpoint =>
    simp only [FixedMethod.solver, midpointSolver, midpointStep, firstStage, FixedMethod.taggedStep, midpointTagged, pureField, bind,
      Except.bind, pure, Except.pure]
    simp only [h4 _ _ (e1 _), h4 _ _ (e4 _ _), h1 _ _ (e1 _), h1 _ _ (e3 _), h2, StepOut.unpack3, pure, Except.pure, Except.map,
      entry_val, half_val, add_val]
  | rk4 =>
    simp only [FixedMethod.solver, rk4Solver, rk4Step, firstStage, FixedMethod.taggedStep, rk4Tagged, pureField, bind,
      Except.bind, pure, Except.pure]
    simp only [h4 _ _ (e1 _), h4 _ _ (e5 _ _ _), h1 _ _ (e1 _), h1 _ _ (e2 _), h2, h3, StepOut.unpack3, pure, Except.pure,
      Except.map, entry_val, add_val, mul_val, smul_eq_mul]

/-- **C140**, fixed-step solvers: a grid of any type. `euler`, `midpoint` and `rk4` integrate a field that maps states of type `d` to values
of type `d` (and may raise on others) as without types: on every grid, in both directions, with every `save_at`. -/
theorem C140_fixed (method : FixedMethod) (d dT : Dtype) (f : Tagged K → Tagged V → Except PyErr (Tagged V)) (g : K → V → V)
    (hf : ∀ t y, t.tag.dim = false → y.tag = ⟨d, true⟩ → f t y = .ok ⟨g t.val y.val, ⟨d, true⟩⟩) (v : V) (tSpan saveAt : List K) :
    odeintTaggedFixed method f ⟨v, ⟨d, true⟩⟩ dT tSpan saveAt =
      (odeintFixed (pureField g) v tSpan (method.solver V Unit) saveAt ()).map (fun r => (r.1, r.2.map fun v => ⟨v, ⟨d, true⟩⟩)) := by
  have key : ∀ (f' : Tagged K → Tagged V → Except PyErr (Tagged V)) (g' : K → V → V) (ts : List K),
      (∀ t y, t.tag.dim = false → y.tag = ⟨d, true⟩ → f' t y = .ok ⟨g' t.val y.val, ⟨d, true⟩⟩) →
      (fixedOdeint torchIsclose (fun x t dt => method.taggedStep d f' x (entry dT t) (entry dT dt)) ⟨v, ⟨d, true⟩⟩ ts saveAt >>=
        fun r => stackTagged r.2 >>= fun sol => pure (r.1, sol)) =
      (fixedOdeint torchIsclose (fun x t dt => (method.solver V Unit).step (pureField g') x t dt none ()) v ts saveAt).map
        (fun r => (r.1, r.2.map fun v => ⟨v, ⟨d, true⟩⟩)) := by
    intro f' g' ts hf'
    rw [← fixedOdeint_map torchIsclose (fun v => (⟨v, ⟨d, true⟩⟩ : Tagged V)) _ _ (taggedStep_commutes method d dT f' g' hf')]
    cases fixedOdeint torchIsclose (fun x t dt => (method.solver V Unit).step (pureField g') x t dt none ()) v ts saveAt with
    | error e => rfl
    | ok r =>
      show (stackTagged (r.2.map fun v => (⟨v, ⟨d, true⟩⟩ : Tagged V)) >>= fun sol => pure (r.1, sol)) = _
      rw [stackTagged_same ⟨d, true⟩ _ (by simp)]
      simp [Except.map, bind, Except.bind, pure, Except.pure, Function.comp_def]
  rcases tSpan with _ | ⟨t0, _ | ⟨t1, rest⟩⟩
  · rfl
  · rfl
  by_cases h : t1 < t0
  · have hrev : reverseField (m := Except PyErr) (pureField g) = pureField (fun t v => - g (-t) v) := by
      funext t x
      rfl
    have := key (reverseTagged f) (fun t v => - g (-t) v) ((t0 :: t1 :: rest).map (fun t => -t)) (by
      intro t y ht hy
      unfold reverseTagged
      rw [hf (-t) y ht hy]
      rfl)
    simp only [odeintTaggedFixed, odeintFixed, odeintDirection, getItem, List.getElem?_cons_zero, List.getElem?_cons_succ, h, if_true,
      bind, Except.bind, pure, Except.pure] at this ⊢
    rw [hrev]
    exact this
  · have := key f g (t0 :: t1 :: rest) hf
    simp only [odeintTaggedFixed, odeintFixed, odeintDirection, getItem, List.getElem?_cons_zero, List.getElem?_cons_succ, h, if_false,
      bind, Except.bind, pure, Except.pure] at this ⊢
    exact this

end fixed

/-! ### The hypotheses are met -/

section examples

/-- A layer with weights of type `d`: raises on states of another type, keeps the axes. -/
def typedLayer {K V : Type} [Neg V] (d : Dtype) : Tagged K → Tagged V → Except PyErr (Tagged V) := fun _ y =>
  if y.tag.dtype = d then .ok ⟨-y.val, y.tag⟩ else .error .runtimeError

/-- The field of `C140_types_partial`, `C140_fixed` and `C140_float64_refuted`. -/
example (d : Dtype) (t : Tagged ℝ) (y : Tagged (Fin 1 → ℝ)) (hy : y.tag = ⟨d, true⟩) :
    typedLayer d t y = .ok ⟨-y.val, ⟨d, true⟩⟩ := by simp [typedLayer, hy]

/-- `C140_fixed` at a `float64` grid and a `float32` state. -/
example : (odeintTaggedFixed .midpoint (typedLayer .float32) (⟨1, ⟨.float32, true⟩⟩ : Tagged ℚ) .float64 [(0 : ℚ), 1, 2] []).map
    (fun r => (r.1, r.2.map fun y => (y.val, y.tag.dtype, y.tag.dim))) =
    Except.ok ([0, 1, 2], [(1, .float32, true), (1 / 2, .float32, true), (1 / 4, .float32, true)]) := by decide +kernel

/-- `C140_types_partial` at a `float32` grid: the run of the layer returns, with states of type `float32`. -/
example (tsit : Bool) (t0 t1 : ℝ) (rest : List ℝ) (hinc : Increasing (t0 :: t1 :: rest)) (ui : Bool) (fuel : ℕ) :
    ∃ r, odeintTagged tsit fuel (typedLayer .float32) ⟨fun _ : Fin 1 => 1, ⟨.float32, true⟩⟩ .float32 (t0 :: t1 :: rest) 1 1 ui false =
      .ok r ∧ ∀ ts xs, r = some (ts, xs) → ts = t0 :: t1 :: rest ∧ xs.length = ts.length ∧ ∀ y ∈ xs, y.tag = ⟨.float32, true⟩ := by
  rw [C140_types_partial tsit fuel .float32 .float32 (typedLayer .float32) (fun _ v => -v) (by simp) (by
    intro t y _ hy
    simp [typedLayer, hy]) (fun _ => 1) (t0 :: t1 :: rest) 1 1 ui false []]
  obtain ⟨r, hr, h⟩ := C21_times (libSolver_fsal tsit ()) (fun _ v => -v) (fun _ : Fin 1 => (1 : ℝ)) t0 t1 rest hinc 1 1 ui [] Finset.univ fuel
  rw [hr]
  refine ⟨_, rfl, fun ts xs e => ?_⟩
  cases r with
  | none => cases e
  | some r =>
    obtain ⟨h1, h2, -⟩ := h r.1 r.2 rfl
    cases e
    refine ⟨h1, by simpa using h2, ?_⟩
    intro y hy
    obtain ⟨v, -, rfl⟩ := List.mem_map.1 hy
    rfl

/-- `C140_float64_refuted`: there is a time such that the call raises on every increasing `float64` grid that starts with 0 and that
time, with `fuel` 1 or more. -/
example (tsit : Bool) : ∃ t1 > (0 : ℝ), ∀ rest fuel, Increasing (0 :: t1 :: rest) →
    odeintTagged tsit (fuel + 1) (typedLayer .float32) ⟨fun _ : Fin 1 => 1, ⟨.float32, true⟩⟩ .float64 (0 :: t1 :: rest) 1 1 false false =
      .error .runtimeError := by
  obtain ⟨dt, hpos, hdt⟩ := initStep_pos (fun (_ : ℝ) (v : Fin 1 → ℝ) => -v) (-fun _ => 1) (fun _ => 1) 0 5 1 1
  refine ⟨dt / 2, by positivity, fun rest fuel hinc => ?_⟩
  exact C140_float64_refuted tsit fuel (typedLayer .float32) (fun _ v => -v) (by
    intro t y hy
    simp [typedLayer, hy]) .runtimeError (by
    intro t y hy
    simp [typedLayer, hy]) (fun _ => 1) 1 1 false 0 (dt / 2) dt rest hinc hdt (by linarith)

/-- `C140_scalar_refuted`: a constant field of the shape of its argument, on the grid `[0, 1, 2]`. -/
example (tsit : Bool) : ∃ fuel, odeintTagged tsit fuel (fun _ y => .ok ⟨fun _ : Fin 1 => 1, y.tag⟩) ⟨fun _ => 0, ⟨.float32, false⟩⟩ .float32
    [0, 1, 2] 1 1 false false = .error .runtimeError := by
  have hinc : Increasing ([0, 1, 2] : List ℝ) := by
    simp [Increasing]
  have : ∃ fuel r, odeint fuel (pureField (fun (_ : ℝ) (_ : Fin 1 → ℝ) (_ : Fin 1) => (1 : ℝ))) (fun _ => 0) [0, 1, 2]
      (libSolver tsit (Fin 1) Unit) 1 1 false false [] () Finset.univ = .ok (some r) := by
    cases tsit with
    | false =>
      obtain ⟨fuel, ts, xs, h⟩ := C27_terminates_dopri5 () (fun (_ : ℝ) (_ : Fin 1 → ℝ) (_ : Fin 1) => (1 : ℝ)) 1 (by simp) (fun _ => 0)
        0 1 [2] hinc 1 1 one_pos zero_le_one false false [] Finset.univ
      exact ⟨fuel, _, h⟩
    | true =>
      obtain ⟨fuel, ts, xs, h⟩ := C27_terminates_tsit5 () (fun (_ : ℝ) (_ : Fin 1 → ℝ) (_ : Fin 1) => (1 : ℝ)) 1 (by simp) (fun _ => 0)
        0 1 [2] hinc 1 1 one_pos zero_le_one false false [] Finset.univ
      exact ⟨fuel, _, h⟩
  obtain ⟨fuel, r, hr⟩ := this
  exact ⟨fuel, C140_scalar_refuted tsit fuel .float32 .float32 _ (fun _ _ _ => 1) (fun t y => ⟨y.tag, rfl, id⟩) (fun _ => 0) 0 1 [2] hinc
    (by simp) 1 1 false [] r hr⟩

end examples

end Torchdyn
