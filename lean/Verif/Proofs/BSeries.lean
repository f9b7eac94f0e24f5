import Mathlib.Analysis.Calculus.FormalMultilinearSeries
import Mathlib.Analysis.Asymptotics.Lemmas
import Mathlib.Analysis.Normed.Module.Multilinear.Basic
import Mathlib.Data.List.OfFn
import Verif.Proofs.Trees

/-! Expansions of Runge-Kutta steps and of exact solutions in elementary differentials, uniformly along a filter. Trees are
plane trees and the factorials are part of the multilinear maps, so no symmetry factors occur. -/

set_option linter.unusedSectionVars false

namespace Spec

open Filter Topology Asymptotics Finset RTree

/-! ### Sums over trees -/

theorem RTree.order_pos (τ : RTree) : 1 ≤ τ.order := by cases τ; simp [order]

theorem orders_eq_sum (l : List RTree) : orders l = (l.map order).sum := by
  induction l with
  | nil => simp [orders]
  | cons τ l ih => simp [orders, ih]

theorem finite_trees (n : ℕ) : {τ : RTree | τ.order ≤ n}.Finite := by
  refine (List.finite_toSet ((forestsUpTo n).map node)).subset ?_
  rintro ⟨ch⟩ h
  have h' : 1 + orders ch ≤ n := h
  exact List.mem_map.2 ⟨ch, mem_forestsUpTo n ch (by omega), rfl⟩

/-- The trees with at most `n` vertices. -/
noncomputable def treesLe (n : ℕ) : Finset RTree := (finite_trees n).toFinset

@[simp] theorem mem_treesLe {n : ℕ} {τ : RTree} : τ ∈ treesLe n ↔ τ.order ≤ n := by simp [treesLe]

open Classical in
/-- Tuples of `k` trees with at most `n` vertices in total. -/
noncomputable def tuplesLe (n k : ℕ) : Finset (Fin k → RTree) :=
  (Fintype.piFinset fun _ => treesLe n).filter (fun r => ∑ i, (r i).order ≤ n)

theorem mem_tuplesLe {n k : ℕ} {r : Fin k → RTree} : r ∈ tuplesLe n k ↔ ∑ i, (r i).order ≤ n := by
  simp only [tuplesLe, mem_filter, Fintype.mem_piFinset, mem_treesLe, and_iff_right_iff_imp]
  intro h i
  exact (single_le_sum (f := fun i => (r i).order) (fun _ _ => Nat.zero_le _) (mem_univ i)).trans h

theorem order_ofFn {k : ℕ} (r : Fin k → RTree) : (node (List.ofFn r)).order = 1 + ∑ i, (r i).order := by
  simp [order, orders_eq_sum, List.map_ofFn, List.sum_ofFn]

/-- A tree with at most `n + 1` vertices is a root with a tuple of trees with at most `n` vertices in total. -/
theorem sum_treesLe_succ {M : Type*} [AddCommMonoid M] (n : ℕ) (G : RTree → M) :
    ∑ τ ∈ treesLe (n + 1), G τ = ∑ k ∈ range (n + 1), ∑ r ∈ tuplesLe n k, G (node (List.ofFn r)) := by
  rw [sum_sigma']
  symm
  refine sum_bij (fun p _ => node (List.ofFn p.2)) ?_ ?_ ?_ ?_
  · rintro ⟨k, r⟩ h
    simp only [mem_sigma, mem_tuplesLe] at h
    rw [mem_treesLe, order_ofFn]
    have := h.2
    simp only at this ⊢
    omega
  · rintro ⟨k, r⟩ _ ⟨k', r'⟩ _ h
    simp only [node.injEq] at h
    exact List.ofFn_inj'.1 h
  · rintro ⟨ch⟩ h
    rw [mem_treesLe] at h
    have hs : ∑ i : Fin ch.length, (ch.get i).order ≤ n := by
      have := order_ofFn ch.get
      rw [List.ofFn_get] at this
      omega
    refine ⟨⟨ch.length, ch.get⟩, ?_, by simp⟩
    simp only [mem_sigma, mem_range, mem_tuplesLe]
    refine ⟨?_, hs⟩
    have : ∑ i : Fin ch.length, 1 ≤ ∑ i : Fin ch.length, (ch.get i).order := sum_le_sum fun i _ => order_pos _
    simp at this hs
    omega
  · rintro ⟨k, r⟩ _
    rfl

/-- Coefficients of the field along an increment with coefficients `c`: products over the subtrees of the root. -/
def graft (c : RTree → ℝ) : RTree → ℝ
  | .node ch => (ch.map c).prod

theorem graft_ofFn (c : RTree → ℝ) {k : ℕ} (r : Fin k → RTree) : graft c (node (List.ofFn r)) = ∏ i, c (r i) := by
  simp [graft, List.map_ofFn, List.prod_ofFn]

variable {E : Type*} [NormedAddCommGroup E] [NormedSpace ℝ E]

mutual
/-- Elementary differential of a tree for the Taylor coefficients `P`. -/
noncomputable def elemDiff (P : FormalMultilinearSeries ℝ E E) : RTree → E
  | .node ch => P ch.length (fun i => (elemDiffs P ch).getD i 0)
noncomputable def elemDiffs (P : FormalMultilinearSeries ℝ E E) : List RTree → List E
  | [] => []
  | τ :: rest => elemDiff P τ :: elemDiffs P rest
end

theorem elemDiffs_eq (P : FormalMultilinearSeries ℝ E E) (l : List RTree) : elemDiffs P l = l.map (elemDiff P) := by
  induction l with
  | nil => simp [elemDiffs]
  | cons τ l ih => simp [elemDiffs, ih]

theorem elemDiff_ofFn (P : FormalMultilinearSeries ℝ E E) {k : ℕ} (r : Fin k → RTree) :
    elemDiff P (node (List.ofFn r)) = P k (fun i => elemDiff P (r i)) := by
  rw [elemDiff]
  refine P.congr (by simp) ?_
  intro i h1 h2
  simp [elemDiffs_eq, List.getD_eq_getElem?_getD, h2]

/-! ### Expansions -/

variable {α : Type*} {l : Filter α}

/-- `f` has around the points `x a` the Taylor coefficients `P a` up to degree `n`, uniformly along `l`. -/
structure Expands (l : Filter α) (f : E → E) (x : α → E) (P : α → FormalMultilinearSeries ℝ E E) (n : ℕ) : Prop where
  bdd : ∀ k ≤ n, (fun a => P a k) =O[l] (fun _ => (1 : ℝ))
  rem : ∀ v : α → E, Tendsto v l (𝓝 0) →
    (fun a => f (x a + v a) - ∑ k ∈ range (n + 1), P a k (fun _ => v a)) =O[l] (fun a => ‖v a‖ ^ (n + 1))

/-- The increment `v` has the expansion with coefficients `c` up to order `n` in `h`. -/
def BExp (l : Filter α) (h : α → ℝ) (P : α → FormalMultilinearSeries ℝ E E) (n : ℕ) (c : RTree → ℝ) (v : α → E) : Prop :=
  (fun a => v a - ∑ τ ∈ treesLe n, (h a ^ τ.order * c τ) • elemDiff (P a) τ) =O[l] (fun a => h a ^ (n + 1))

variable {h : α → ℝ} {P : α → FormalMultilinearSeries ℝ E E} {f : E → E} {x : α → E} {n : ℕ}

theorem pow_isBigO (hl : Tendsto h l (𝓝 0)) {i j : ℕ} (hij : j ≤ i) : (fun a => h a ^ i) =O[l] (fun a => h a ^ j) := by
  have h1 : ∀ᶠ a in l, ‖h a‖ ≤ 1 := (hl.norm.eventually_le_const (by simp)).mono fun _ h => h
  refine IsBigO.of_bound 1 (h1.mono fun a ha => ?_)
  rw [one_mul, norm_pow, norm_pow]
  exact pow_le_pow_of_le_one (norm_nonneg _) ha hij

theorem multilinear_isBigO {k : ℕ} {Q : α → ContinuousMultilinearMap ℝ (fun _ : Fin k => E) E} (hQ : Q =O[l] (fun _ => (1 : ℝ)))
    {m : α → Fin k → E} {g : Fin k → α → ℝ} (hm : ∀ i, (fun a => m a i) =O[l] (g i)) :
    (fun a => Q a (m a)) =O[l] (fun a => ∏ i, g i a) := by
  have h1 : (fun a => Q a (m a)) =O[l] (fun a => ‖Q a‖ * ∏ i, ‖m a i‖) :=
    IsBigO.of_bound 1 (Eventually.of_forall fun a => by
      rw [one_mul, Real.norm_of_nonneg (by positivity)]
      exact (Q a).le_opNorm _)
  refine h1.trans ?_
  have h2 : (fun a => ∏ i, ‖m a i‖) =O[l] (fun a => ∏ i, g i a) :=
    IsBigO.finsetProd fun i _ => (hm i).norm_left
  simpa using (hQ.norm_left).mul h2

theorem elemDiff_isBigO (hP : ∀ k ≤ n, (fun a => P a k) =O[l] (fun _ => (1 : ℝ))) :
    ∀ N, ∀ τ : RTree, τ.order ≤ N → τ.order ≤ n + 1 → (fun a => elemDiff (P a) τ) =O[l] (fun _ => (1 : ℝ)) := by
  intro N
  induction N with
  | zero => intro τ h; have := τ.order_pos; omega
  | succ N ih =>
    rintro ⟨ch⟩ h1 h2
    obtain ⟨k, r, rfl⟩ : ∃ (k : ℕ) (r : Fin k → RTree), ch = List.ofFn r := ⟨_, ch.get, by simp⟩
    rw [order_ofFn] at h1 h2
    simp only [elemDiff_ofFn]
    have hk : k ≤ n := by
      have : ∑ i : Fin k, 1 ≤ ∑ i : Fin k, (r i).order := sum_le_sum fun i _ => order_pos _
      simp at this
      omega
    have hle : ∀ i, (r i).order ≤ ∑ i, (r i).order := fun i =>
      single_le_sum (f := fun i => (r i).order) (fun _ _ => Nat.zero_le _) (mem_univ i)
    have := multilinear_isBigO (hP k hk) (m := fun a i => elemDiff (P a) (r i)) (g := fun _ _ => 1)
      (fun i => ih (r i) (by have := hle i; omega) (by have := hle i; omega))
    simpa using this

theorem BExp.isBigO (hl : Tendsto h l (𝓝 0)) (hP : ∀ k ≤ n, (fun a => P a k) =O[l] (fun _ => (1 : ℝ)))
    {c : RTree → ℝ} {v : α → E} (hv : BExp l h P n c v) : v =O[l] h := by
  have h1 : (fun a => ∑ τ ∈ treesLe n, (h a ^ τ.order * c τ) • elemDiff (P a) τ) =O[l] h := by
    apply IsBigO.fun_sum; intro τ hτ
    have e := elemDiff_isBigO hP _ τ le_rfl ((mem_treesLe.1 hτ).trans (Nat.le_succ n))
    have := ((pow_isBigO hl τ.order_pos).mul (isBigO_const_const (c τ) (one_ne_zero (α := ℝ)) l)).smul e
    simpa using this
  have h2 : (fun a => h a ^ (n + 1)) =O[l] h := by simpa using pow_isBigO hl (show 1 ≤ n + 1 by omega)
  have := (hv.trans h2).add h1
  simpa using this

theorem BExp.trunc (hl : Tendsto h l (𝓝 0)) (hP : ∀ k ≤ n, (fun a => P a k) =O[l] (fun _ => (1 : ℝ)))
    {c : RTree → ℝ} {v : α → E} (hv : BExp l h P (n + 1) c v) : BExp l h P n c v := by
  classical
  have hsub : treesLe n ⊆ treesLe (n + 1) := by
    intro τ h
    rw [mem_treesLe] at h ⊢
    omega
  have h1 : (fun a => ∑ τ ∈ treesLe (n + 1) \ treesLe n, (h a ^ τ.order * c τ) • elemDiff (P a) τ) =O[l]
      (fun a => h a ^ (n + 1)) := by
    apply IsBigO.fun_sum; intro τ hτ
    simp only [Finset.mem_sdiff, mem_treesLe, not_le] at hτ
    have e := elemDiff_isBigO hP _ τ le_rfl hτ.1
    have := ((pow_isBigO hl hτ.2).mul (isBigO_const_const (c τ) (one_ne_zero (α := ℝ)) l)).smul e
    simpa using this
  have h2 := (hv.trans (pow_isBigO hl (Nat.le_succ (n + 1)))).add h1
  unfold BExp
  refine h2.congr_left fun a => ?_
  rw [← sum_sdiff hsub]
  abel

theorem BExp.zero : BExp l h P n (fun _ => 0) (fun _ => (0 : E)) := by
  simp only [BExp, mul_zero, zero_smul, sum_const_zero, sub_self]
  exact isBigO_zero _ _

theorem BExp.add {c d : RTree → ℝ} {v w : α → E} (hv : BExp l h P n c v) (hw : BExp l h P n d w) :
    BExp l h P n (fun τ => c τ + d τ) (fun a => v a + w a) := by
  refine (IsBigO.add hv hw).congr_left fun a => ?_
  simp only [mul_add, add_smul, sum_add_distrib]
  abel

theorem BExp.smul {c : RTree → ℝ} {v : α → E} (b : ℝ) (hv : BExp l h P n c v) :
    BExp l h P n (fun τ => b * c τ) (fun a => b • v a) := by
  have := IsBigO.const_smul_left hv b
  refine this.congr_left fun a => ?_
  change b • (v a - _) = _
  rw [smul_sub, smul_sum]
  congr 1
  refine sum_congr rfl fun τ _ => ?_
  rw [smul_smul]
  congr 1
  ring

/-- The field along an increment. -/
theorem BExp.field (hl : Tendsto h l (𝓝 0)) (hf : Expands l f x P n) {c : RTree → ℝ} {v : α → E} (hv : BExp l h P n c v) :
    (fun a => f (x a + v a) - ∑ τ ∈ treesLe (n + 1), (h a ^ (τ.order - 1) * graft c τ) • elemDiff (P a) τ) =O[l]
      (fun a => h a ^ (n + 1)) := by
  classical
  have hvO := hv.isBigO hl hf.bdd
  have hv0 : Tendsto v l (𝓝 0) := hvO.trans_tendsto hl
  set u : α → E := fun a => ∑ τ ∈ treesLe n, (h a ^ τ.order * c τ) • elemDiff (P a) τ with hu
  have huO : u =O[l] h := by
    have h2 : (fun a => h a ^ (n + 1)) =O[l] h := by simpa using pow_isBigO hl (show 1 ≤ n + 1 by omega)
    have := hvO.sub (hv.trans h2)
    simpa [hu] using this
  -- Taylor remainder
  have r1 : (fun a => f (x a + v a) - ∑ k ∈ range (n + 1), P a k (fun _ => v a)) =O[l] (fun a => h a ^ (n + 1)) :=
    (hf.rem v hv0).trans (by simpa using (hvO.norm_left.pow (n + 1)))
  -- replacing `v` by the truncated expansion
  have r2 : ∀ k ∈ range (n + 1), (fun a => P a k (fun _ => v a) - P a k (fun _ => u a)) =O[l] (fun a => h a ^ (n + 1)) := by
    intro k hk
    have hk' : k ≤ n := by simpa [Nat.lt_succ_iff] using hk
    have hone : ∀ w : α → E, w =O[l] h → w =O[l] (fun _ => (1 : ℝ)) := fun w hw =>
      hw.trans (by simpa using pow_isBigO hl (Nat.zero_le 1))
    have b1 : (fun a => P a k (fun _ => v a) - P a k (fun _ => u a)) =O[l]
        (fun a => ‖P a k‖ * k * (max ‖v a‖ ‖u a‖) ^ (k - 1) * ‖v a - u a‖) := by
      refine IsBigO.of_bound 1 (Eventually.of_forall fun a => ?_)
      rw [one_mul, Real.norm_of_nonneg (by positivity)]
      rcases Nat.eq_zero_or_pos k with rfl | hk0
      · simp
        have : (fun _ : Fin 0 => v a) = fun _ => u a := by ext i; exact i.elim0
        rw [this]; simp
      · have hne : Nonempty (Fin k) := ⟨⟨0, hk0⟩⟩
        have := (P a k).norm_image_sub_le (fun _ => v a) (fun _ => u a)
        have e1 : ‖fun _ : Fin k => v a‖ = ‖v a‖ := pi_norm_const _
        have e2 : ‖fun _ : Fin k => u a‖ = ‖u a‖ := pi_norm_const _
        have e3 : ‖(fun _ : Fin k => v a) - (fun _ => u a)‖ = ‖v a - u a‖ := pi_norm_const (v a - u a)
        rw [e1, e2, e3, Fintype.card_fin] at this
        exact this
    have b2 : (fun a => max ‖v a‖ ‖u a‖) =O[l] (fun _ => (1 : ℝ)) := by
      have := (hone v hvO).norm_left.add (hone u huO).norm_left
      refine IsBigO.trans (IsBigO.of_bound 1 (Eventually.of_forall fun a => ?_)) this
      rw [one_mul, Real.norm_of_nonneg (by positivity), Real.norm_of_nonneg (by positivity)]
      exact max_le (by linarith [norm_nonneg (u a)]) (by linarith [norm_nonneg (v a)])
    have b3 := (((hf.bdd k hk').norm_left.mul (isBigO_const_const (k : ℝ) (one_ne_zero (α := ℝ)) l)).mul
      (b2.pow (k - 1))).mul (IsBigO.norm_left hv)
    refine b1.trans (b3.trans ?_)
    simpa using isBigO_refl _ l
  -- expansion of the multilinear maps
  have r3 : ∀ k ∈ range (n + 1), (fun a => P a k (fun _ => u a) -
      ∑ r ∈ tuplesLe n k, (h a ^ ((node (List.ofFn r)).order - 1) * graft c (node (List.ofFn r))) •
        elemDiff (P a) (node (List.ofFn r))) =O[l] (fun a => h a ^ (n + 1)) := by
    intro k hk
    have hk' : k ≤ n := by simpa [Nat.lt_succ_iff] using hk
    have hex : ∀ a, P a k (fun _ => u a) = ∑ r ∈ Fintype.piFinset (fun _ : Fin k => treesLe n),
        (h a ^ (∑ i, (r i).order) * ∏ i, c (r i)) • P a k (fun i => elemDiff (P a) (r i)) := by
      intro a
      simp only [hu]
      rw [ContinuousMultilinearMap.map_sum_finset (P a k)
        (fun _ τ => (h a ^ τ.order * c τ) • elemDiff (P a) τ) (fun _ => treesLe n)]
      refine sum_congr rfl fun r _ => ?_
      rw [ContinuousMultilinearMap.map_smul_univ, prod_mul_distrib, prod_pow_eq_pow_sum]
    have hrest : (fun a => ∑ r ∈ (Fintype.piFinset (fun _ : Fin k => treesLe n)).filter (fun r => ¬ ∑ i, (r i).order ≤ n),
        (h a ^ (∑ i, (r i).order) * ∏ i, c (r i)) • P a k (fun i => elemDiff (P a) (r i))) =O[l]
        (fun a => h a ^ (n + 1)) := by
      apply IsBigO.fun_sum; intro r hr
      simp only [mem_filter, Fintype.mem_piFinset, mem_treesLe, not_le] at hr
      have e := multilinear_isBigO (hf.bdd k hk') (m := fun a i => elemDiff (P a) (r i)) (g := fun _ _ => 1)
        (fun i => elemDiff_isBigO hf.bdd _ (r i) le_rfl ((hr.1 i).trans (Nat.le_succ n)))
      have := ((pow_isBigO hl hr.2).mul (isBigO_const_const (∏ i, c (r i)) (one_ne_zero (α := ℝ)) l)).smul e
      simpa using this
    refine hrest.congr_left fun a => ?_
    rw [hex a, ← sum_filter_add_sum_filter_not (Fintype.piFinset (fun _ : Fin k => treesLe n))
      (fun r => ∑ i, (r i).order ≤ n)]
    have e : ∑ r ∈ (Fintype.piFinset (fun _ : Fin k => treesLe n)).filter (fun r => ∑ i, (r i).order ≤ n),
        (h a ^ (∑ i, (r i).order) * ∏ i, c (r i)) • P a k (fun i => elemDiff (P a) (r i)) =
        ∑ r ∈ tuplesLe n k, (h a ^ ((node (List.ofFn r)).order - 1) * graft c (node (List.ofFn r))) •
        elemDiff (P a) (node (List.ofFn r)) := by
      refine sum_congr ?_ fun r _ => ?_
      · simp [tuplesLe]
      · rw [order_ofFn, graft_ofFn, elemDiff_ofFn, Nat.add_sub_cancel_left]
    rw [e]
    abel
  have r := (r1.add (IsBigO.fun_sum r2)).add (IsBigO.fun_sum r3)
  refine r.congr_left fun a => ?_
  rw [sum_treesLe_succ]
  simp only [sum_sub_distrib]
  abel

/-- One stage: the increment `h f(x + v)`. -/
theorem BExp.stage (hl : Tendsto h l (𝓝 0)) (hf : Expands l f x P n) {c : RTree → ℝ} {v : α → E} (hv : BExp l h P n c v) :
    BExp l h P (n + 1) (graft c) (fun a => h a • f (x a + v a)) := by
  have := (isBigO_refl h l).smul (hv.field hl hf)
  refine (this.congr_left fun a => ?_).congr_right fun a => ?_
  · rw [smul_sub, smul_sum]
    congr 1
    refine sum_congr rfl fun τ _ => ?_
    rw [smul_smul]
    congr 1
    obtain ⟨m, hm⟩ : ∃ m, τ.order = m + 1 := ⟨τ.order - 1, by have := τ.order_pos; omega⟩
    rw [hm, Nat.add_sub_cancel, pow_succ]
    ring
  · rw [smul_eq_mul, pow_succ]
    ring

end Spec
