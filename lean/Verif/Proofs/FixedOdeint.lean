import Verif.Model.Api
import Verif.Spec.Grid
import Mathlib.Algebra.Order.Ring.Rat
import Mathlib.Tactic.NormNum
import Mathlib.Tactic.Linarith
import Mathlib.Tactic.Positivity
import Mathlib.Data.List.Nodup

/-! Lemmas about `_fixed_odeint`. -/

set_option linter.unusedSectionVars false
set_option linter.unusedSimpArgs false

namespace Torchdyn

open Spec

/-! ### Grid states -/

section grid

variable {K V W : Type} [Sub K]

theorem gridStates_length (φ : V → K → K → V) (x : V) (ts : List K) :
    (gridStates φ x ts).length = ts.length := by
  induction ts generalizing x with
  | nil => rfl
  | cons t ts ih =>
    cases ts with
    | nil => rfl
    | cons t' ts => simp [gridStates, ih]

theorem gridStates_isTrajectory (φ : V → K → K → V) (x : V) (ts : List K) (h : ts ≠ []) :
    IsTrajectory φ x ts (gridStates φ x ts) := by
  refine ⟨gridStates_length φ x ts, ?_, ?_⟩
  · match ts, h with
    | [_], _ => rfl
    | _ :: _ :: _, _ => rfl
  · intro k
    induction k generalizing x ts with
    | zero =>
      intro t t' y h1 h2 h3
      match ts with
      | [] => simp at h1
      | [_] => simp at h2
      | a :: b :: rest =>
        simp at h1 h2
        subst h1 h2
        simp only [gridStates, List.getElem?_cons_zero, Option.some.injEq] at h3
        subst h3
        cases rest <;> simp [gridStates]
    | succ k ih =>
      intro t t' y h1 h2 h3
      match ts with
      | [] => simp at h1
      | [_] => simp at h2
      | a :: b :: rest =>
        simp only [gridStates, List.getElem?_cons_succ] at h1 h2 h3 ⊢
        exact ih _ (b :: rest) (by simp) t t' y (by simpa using h1) (by simpa using h2) h3

/-- A trajectory is determined by the one-step map, the initial state and the grid. -/
theorem _root_.Spec.IsTrajectory.eq_gridStates {φ : V → K → K → V} {x : V} {ts : List K} {sol : List V}
    (h : IsTrajectory φ x ts sol) (hts : ts ≠ []) : sol = gridStates φ x ts := by
  have g := gridStates_isTrajectory φ x ts hts
  apply List.ext_getElem?
  intro k
  induction k with
  | zero => rw [h.start, g.start]
  | succ k ih =>
    by_cases hk : k + 1 < ts.length
    · obtain ⟨t, ht⟩ : ∃ t, ts[k]? = some t := ⟨_, List.getElem?_eq_getElem (by omega)⟩
      obtain ⟨t', ht'⟩ : ∃ t', ts[k + 1]? = some t' := ⟨_, List.getElem?_eq_getElem hk⟩
      obtain ⟨y, hy⟩ : ∃ y, sol[k]? = some y :=
        ⟨_, List.getElem?_eq_getElem (by rw [h.length_eq]; omega)⟩
      rw [h.next k t t' y ht ht' hy, g.next k t t' y ht ht' (ih ▸ hy)]
    · rw [List.getElem?_eq_none (by rw [h.length_eq]; omega),
        List.getElem?_eq_none (by rw [g.length_eq]; omega)]

theorem gridStates_map (φ : V → K → K → V) (ψ : W → K → K → W) (p : V → W)
    (h : ∀ x t dt, p (φ x t dt) = ψ (p x) t dt) (x : V) (ts : List K) :
    (gridStates φ x ts).map p = gridStates ψ (p x) ts := by
  induction ts generalizing x with
  | nil => rfl
  | cons t ts ih =>
    cases ts with
    | nil => rfl
    | cons t' ts => simp [gridStates, ih, h]

theorem gridStates_append (φ : V → K → K → V) (x : V) (pre post : List K) (t : K) :
    gridStates φ x (pre ++ t :: post) =
      gridStates φ x (pre ++ [t]) ++
        (gridStates φ ((gridStates φ x (pre ++ [t])).getLast?.getD x) (t :: post)).tail := by
  induction pre generalizing x with
  | nil =>
    cases post <;> simp [gridStates]
  | cons a pre ih =>
    cases pre with
    | nil =>
      have := ih (φ x a (t - a))
      simp only [List.nil_append, List.cons_append, gridStates] at this ⊢
      rw [this]
      simp [gridStates]
    | cons b pre =>
      have := ih (φ x a (b - a))
      simp only [List.cons_append, gridStates] at this ⊢
      rw [this]
      have hne : gridStates φ (φ x a (b - a)) (b :: (pre ++ [t])) ≠ [] := by
        intro h0
        have := congrArg List.length h0
        rw [gridStates_length] at this
        simp at this
      congr 3
      rw [List.getLast?_cons]
      cases hl : (gridStates φ (φ x a (b - a)) (b :: (pre ++ [t]))).getLast? with
      | none => exact absurd (List.getLast?_eq_none_iff.1 hl) hne
      | some z => simp

end grid

/-! ### The loop in an arbitrary lawful monad -/

/-- `n` repetitions of an effect. -/
def tickN {m : Type → Type} [Monad m] (tick : m Unit) : Nat → m Unit
  | 0 => pure ()
  | n + 1 => do tick; tickN tick n

/-- The states kept by the save-point test. -/
def collect {K V : Type} (keep : K → Bool) (ts : List K) (xs : List V) : List V :=
  ((ts.zip xs).filter (fun p => keep p.1)).map Prod.snd

section loop

variable {m : Type → Type} [Monad m] [LawfulMonad m] [MonadExcept PyErr m] {K V : Type}

/-- The values of the loop's clock `t` along the grid. -/
def clockTimes [Add K] [Sub K] : K → List K → List K
  | τ, [] => [τ]
  | τ, s :: rest => τ :: clockTimes (τ + (s - τ)) rest

/-- The states along the grid when the loop's clock shows `τ`. -/
def clockStates [Add K] [Sub K] (φ : V → K → K → V) : K → V → List K → List V
  | _, x, [] => [x]
  | τ, x, s :: rest => x :: clockStates φ (τ + (s - τ)) (φ x τ (s - τ)) rest

theorem clockTimes_length [Add K] [Sub K] (τ : K) (rest : List K) :
    (clockTimes τ rest).length = rest.length + 1 := by
  induction rest generalizing τ with
  | nil => rfl
  | cons s rest ih => simp [clockTimes, ih]

theorem clockStates_length [Add K] [Sub K] (φ : V → K → K → V) (τ : K) (x : V) (rest : List K) :
    (clockStates φ τ x rest).length = rest.length + 1 := by
  induction rest generalizing τ x with
  | nil => rfl
  | cons s rest ih => simp [clockStates, ih]

theorem clockTimes_eq [AddCommGroup K] (τ : K) (rest : List K) : clockTimes τ rest = τ :: rest := by
  induction rest generalizing τ with
  | nil => rfl
  | cons s rest ih => rw [clockTimes, ih, add_sub_cancel]

theorem clockStates_eq [AddCommGroup K] (φ : V → K → K → V) (τ : K) (x : V) (rest : List K) :
    clockStates φ τ x rest = gridStates φ x (τ :: rest) := by
  induction rest generalizing τ x with
  | nil => rfl
  | cons s rest ih => rw [clockStates, ih, add_sub_cancel]; rfl

theorem clockTimes_cons [Add K] [Sub K] (τ : K) (rest : List K) :
    clockTimes τ rest = τ :: (clockTimes τ rest).tail := by cases rest <;> rfl

theorem clockStates_cons [Add K] [Sub K] (φ : V → K → K → V) (τ : K) (x : V) (rest : List K) :
    clockStates φ τ x rest = x :: (clockStates φ τ x rest).tail := by cases rest <;> rfl

theorem fixedLoop_eq [Add K] [Sub K] (isclose : K → K → Bool) (step : V → K → K → m (StepOut V))
    (tick : m Unit) (φ : V → K → K → V)
    (hstep : ∀ x t dt, ∃ k e, step x t dt = (do tick; pure (.three k (φ x t dt) e)))
    (saveAt : List K) (rest : List K) :
    ∀ (pre : List K) (t₀ t dt : K) (x : V) (sol : List V) (fuel : Nat),
      rest.length ≤ fuel → (∀ t' ∈ rest.head?, dt = t' - t) →
      fixedLoop isclose step (pre ++ t₀ :: rest) saveAt fuel (pre.length + 1) t dt x sol =
        (do tickN tick rest.length
            pure (sol ++ collect (fun t => decide (closeCount isclose t saveAt ≠ 0))
              (clockTimes t rest).tail (clockStates φ t x rest).tail)) := by
  induction rest with
  | nil =>
    intro pre t₀ t dt x sol fuel _ _
    cases fuel with
    | zero => simp [fixedLoop, tickN, collect, clockTimes]
    | succ fuel => simp [fixedLoop, tickN, collect, clockTimes]
  | cons t' rest ih =>
    intro pre t₀ t dt x sol fuel hfuel hdt
    cases fuel with
    | zero => simp at hfuel
    | succ fuel =>
      have hd : dt = t' - t := hdt t' (by simp)
      obtain ⟨k, e, hs⟩ := hstep x t dt
      have hcond : pre.length + 1 ≤ (pre ++ t₀ :: t' :: rest).length - 1 := by simp
      rw [fixedLoop, if_pos hcond, hs]
      simp only [bind_assoc, pure_bind, StepOut.unpack3, tickN, List.length_cons]
      congr 1
      funext _
      subst hd
      simp only [clockTimes, clockStates, List.tail_cons]
      generalize t + (t' - t) = τ
      generalize φ x t (t' - t) = y
      have key : ∀ dt', (∀ t'' ∈ rest.head?, dt' = t'' - τ) → ∀ sol',
          fixedLoop isclose step (pre ++ t₀ :: t' :: rest) saveAt fuel (pre.length + 1 + 1) τ dt' y
            sol' =
          (do tickN tick rest.length
              pure (sol' ++ collect (fun t => decide (closeCount isclose t saveAt ≠ 0))
                (clockTimes τ rest).tail (clockStates φ τ y rest).tail)) := by
        intro dt' hdt' sol'
        have := ih (pre ++ [t₀]) t' τ dt' y sol' fuel (by simpa using hfuel) hdt'
        simpa using this
      have hcol : (if closeCount isclose τ saveAt ≠ 0 then sol ++ [y] else sol) ++
            collect (fun t => decide (closeCount isclose t saveAt ≠ 0)) (clockTimes τ rest).tail
              (clockStates φ τ y rest).tail =
          sol ++ collect (fun t => decide (closeCount isclose t saveAt ≠ 0)) (clockTimes τ rest)
              (clockStates φ τ y rest) := by
        rw [clockTimes_cons τ rest, clockStates_cons φ τ y rest]
        by_cases hk : closeCount isclose τ saveAt = 0 <;> simp [collect, hk]
      cases rest with
      | nil =>
        have hlt : ¬ pre.length + 1 < (pre ++ [t₀, t']).length - 1 := by simp
        rw [if_neg hlt, key _ (by simp), hcol]
      | cons t'' rest =>
        have hlt : pre.length + 1 < (pre ++ t₀ :: t' :: t'' :: rest).length - 1 := by simp
        have hget : (getItem (pre ++ t₀ :: t' :: t'' :: rest) (pre.length + 1 + 1) : m K) = pure t'' := by
          have : (pre ++ t₀ :: t' :: t'' :: rest)[pre.length + 1 + 1]? = some t'' := by
            rw [List.getElem?_append_right (by omega)]
            have : pre.length + 1 + 1 - pre.length = 2 := by omega
            rw [this]; rfl
          simp [getItem, this]
        rw [if_pos hlt, hget]
        simp only [pure_bind]
        rw [key _ (by simp), hcol]

end loop

/-! ### `torch.isclose` and separation -/

section sep

variable {K : Type} [Field K] [LinearOrder K] [IsStrictOrderedRing K]

theorem torchIsclose_iff (a b : K) : torchIsclose a b = true ↔ Close a b := by
  simp [torchIsclose, Close]

theorem torchIsclose_self (a : K) : torchIsclose a a = true := by
  rw [torchIsclose_iff, Close, sub_self, abs_zero]; positivity

theorem closeCount_ne_zero {isclose : K → K → Bool} {t : K} {l : List K} :
    closeCount isclose t l ≠ 0 ↔ ∃ s ∈ l, isclose t s = true := by
  simp [closeCount, List.filter_eq_nil_iff]

/-- The assertion of odeint.py:417 holds exactly for separated lists. -/
theorem assert_iff_separated (l : List K) :
    (l.all (fun t => closeCount torchIsclose t l == 1)) = true ↔ Separated l := by
  rw [List.all_eq_true]
  simp only [beq_iff_eq]
  constructor
  · intro h
    rw [Separated, List.pairwise_iff_getElem]
    intro i j hi hj hij
    have two : ∀ (a b : K), a = l[i] → b = l[j] → ∀ t, torchIsclose t a = true → torchIsclose t b = true →
        2 ≤ closeCount torchIsclose t l := by
      intro a b ha hb t h1 h2
      have hsub : [a, b].Sublist l := by
        rw [ha, hb]
        have e : l = l.take (i + 1) ++ l.drop (i + 1) := (List.take_append_drop _ _).symm
        have m1 : [l[i]].Sublist (l.take (i + 1)) :=
          List.singleton_sublist.2 (List.mem_take_iff_getElem.2 ⟨i, by omega, rfl⟩)
        have m2 : [l[j]].Sublist (l.drop (i + 1)) :=
          List.singleton_sublist.2 (List.mem_drop_iff_getElem.2
            ⟨j - (i + 1), by omega, by congr 1; omega⟩)
        have := m1.append m2
        rw [List.take_append_drop] at this
        exact this
      have := (hsub.filter (fun s => torchIsclose t s)).length_le
      simpa [closeCount, h1, h2] using this
    constructor
    · intro hc
      have := two _ _ rfl rfl l[i] (torchIsclose_self _) ((torchIsclose_iff _ _).2 hc)
      have := h l[i] (List.getElem_mem _)
      omega
    · intro hc
      have := two _ _ rfl rfl l[j] ((torchIsclose_iff _ _).2 hc) (torchIsclose_self _)
      have := h l[j] (List.getElem_mem _)
      omega
  · intro h t ht
    obtain ⟨l1, l2, rfl⟩ := List.append_of_mem ht
    rw [Separated, List.pairwise_append] at h
    obtain ⟨_, h2, h3⟩ := h
    rw [List.pairwise_cons] at h2
    have f1 : l1.filter (fun s => torchIsclose t s) = [] := by
      rw [List.filter_eq_nil_iff]
      intro s hs hc
      exact (h3 s hs t (by simp)).2 ((torchIsclose_iff _ _).1 hc)
    have f2 : l2.filter (fun s => torchIsclose t s) = [] := by
      rw [List.filter_eq_nil_iff]
      intro s hs hc
      exact (h2.1 s hs).1 ((torchIsclose_iff _ _).1 hc)
    simp [closeCount, List.filter_append, List.filter_cons, torchIsclose_self, f1, f2]

theorem _root_.Spec.Separated.nodup {l : List K} (h : Separated l) : l.Nodup := by
  refine h.imp ?_
  rintro a b ⟨h1, _⟩ rfl
  exact h1 ((torchIsclose_iff _ _).1 (torchIsclose_self a))

theorem _root_.Spec.Separated.eq_of_close {l : List K} (h : Separated l) {a b : K} (ha : a ∈ l) (hb : b ∈ l)
    (hc : Close a b) : a = b := by
  by_contra hne
  have hs : ∀ x ∈ l, ∀ y ∈ l, x ≠ y → ¬ Close x y := by
    intro x hx y hy hxy
    obtain ⟨i, hi, rfl⟩ := List.getElem_of_mem hx
    obtain ⟨j, hj, rfl⟩ := List.getElem_of_mem hy
    have hp := List.pairwise_iff_getElem.1 h
    rcases lt_trichotomy i j with hij | hij | hij
    · exact (hp i j hi hj hij).1
    · subst hij; exact absurd rfl hxy
    · exact (hp j i hj hi hij).2
  exact hs a ha b hb hne hc

theorem _root_.Spec.Separated.sublist {l l' : List K} (h : Separated l) (hs : l'.Sublist l) : Separated l' :=
  List.Pairwise.sublist hs h

theorem close_neg (a b : K) : Close (-a) (-b) ↔ Close a b := by
  have : -a - -b = -(a - b) := by ring
  rw [Close, Close, this, abs_neg, abs_neg]

theorem separated_neg (l : List K) : Separated (l.map (fun t => -t)) ↔ Separated l := by
  simp only [Separated, List.pairwise_map, close_neg]

end sep

/-! ### The whole routine -/

section whole

variable {m : Type → Type} [Monad m] [LawfulMonad m] [MonadExcept PyErr m] {K V : Type}

/-- The save points actually used. -/
def effSaveAt {K : Type} (tSpan saveAt : List K) : List K :=
  if saveAt.length = 0 then tSpan else saveAt

/-- Complete description of `_fixed_odeint` on grids with at least two points, for a stepper whose
effects are `tick`, in arbitrary time arithmetic. -/
theorem fixedOdeint_clock [Add K] [Sub K] (isclose : K → K → Bool)
    (step : V → K → K → m (StepOut V)) (tick : m Unit) (φ : V → K → K → V)
    (hstep : ∀ x t dt, ∃ k e, step x t dt = (do tick; pure (.three k (φ x t dt) e)))
    (x : V) (t0 t1 : K) (rest saveAt : List K) :
    fixedOdeint isclose step x (t0 :: t1 :: rest) saveAt =
      if (effSaveAt (t0 :: t1 :: rest) saveAt).all
          (fun t => closeCount isclose t (effSaveAt (t0 :: t1 :: rest) saveAt) == 1) then do
        tickN tick (rest.length + 1)
        let sol := collect
          (fun t => decide (closeCount isclose t (effSaveAt (t0 :: t1 :: rest) saveAt) ≠ 0))
          (clockTimes t0 (t1 :: rest)) (clockStates φ t0 x (t1 :: rest))
        let _ ← getItem sol 0
        pure (effSaveAt (t0 :: t1 :: rest) saveAt, sol)
      else throw PyErr.assertionError := by
  simp only [fixedOdeint]
  rw [show (if saveAt.length = 0 then t0 :: t1 :: rest else saveAt)
    = effSaveAt (t0 :: t1 :: rest) saveAt from rfl]
  generalize effSaveAt (t0 :: t1 :: rest) saveAt = sa
  by_cases hassert : sa.all (fun t => closeCount isclose t sa == 1)
  · rw [if_pos hassert, if_pos hassert]
    have g0 : (getItem (t0 :: t1 :: rest) 0 : m K) = pure t0 := rfl
    have g1 : (getItem (t0 :: t1 :: rest) 1 : m K) = pure t1 := rfl
    rw [g0, g1]
    simp only [pure_bind]
    have := fixedLoop_eq isclose step tick φ hstep sa (t1 :: rest) [] t0 t0 (t1 - t0) x
      (if closeCount isclose t0 sa ≠ 0 then [x] else []) (t0 :: t1 :: rest).length
      (by simp) (by simp)
    simp only [List.nil_append, List.length_nil, zero_add] at this
    rw [this]
    simp only [bind_assoc, pure_bind, List.length_cons]
    congr 1
    funext _
    have hsol : (if closeCount isclose t0 sa ≠ 0 then [x] else []) ++
        collect (fun t => decide (closeCount isclose t sa ≠ 0)) (clockTimes t0 (t1 :: rest)).tail
          (clockStates φ t0 x (t1 :: rest)).tail =
        collect (fun t => decide (closeCount isclose t sa ≠ 0)) (clockTimes t0 (t1 :: rest))
          (clockStates φ t0 x (t1 :: rest)) := by
      rw [clockTimes_cons t0 (t1 :: rest), clockStates_cons φ t0 x (t1 :: rest)]
      by_cases hk : closeCount isclose t0 sa = 0 <;> simp [collect, hk]
    rw [hsol]
  · rw [if_neg hassert, if_neg hassert]

variable [Field K] [LinearOrder K] [IsStrictOrderedRing K]

/-- The same in exact time arithmetic. -/
theorem fixedOdeint_eq (step : V → K → K → m (StepOut V)) (tick : m Unit) (φ : V → K → K → V)
    (hstep : ∀ x t dt, ∃ k e, step x t dt = (do tick; pure (.three k (φ x t dt) e)))
    (x : V) (t0 t1 : K) (rest saveAt : List K) :
    fixedOdeint torchIsclose step x (t0 :: t1 :: rest) saveAt =
      if (effSaveAt (t0 :: t1 :: rest) saveAt).all
          (fun t => closeCount torchIsclose t (effSaveAt (t0 :: t1 :: rest) saveAt) == 1) then do
        tickN tick (rest.length + 1)
        let sol := collect
          (fun t => decide (closeCount torchIsclose t (effSaveAt (t0 :: t1 :: rest) saveAt) ≠ 0))
          (t0 :: t1 :: rest) (gridStates φ x (t0 :: t1 :: rest))
        let _ ← getItem sol 0
        pure (effSaveAt (t0 :: t1 :: rest) saveAt, sol)
      else throw PyErr.assertionError := by
  rw [fixedOdeint_clock torchIsclose step tick φ hstep, clockTimes_eq, clockStates_eq]

theorem collect_all {K V : Type} (keep : K → Bool) (ts : List K) (xs : List V)
    (h : ∀ t ∈ ts, keep t = true) (hl : xs.length = ts.length) : collect keep ts xs = xs := by
  induction ts generalizing xs with
  | nil => cases xs <;> simp_all [collect]
  | cons t ts ih =>
    cases xs with
    | nil => simp at hl
    | cons y xs =>
      have := ih xs (fun t ht => h t (by simp [ht])) (by simpa using hl)
      simp only [collect] at this
      simp [collect, h t (by simp), this]

/-- The default run (`save_at = ()`) on a separated grid, for a stepper whose effects are `tick`. -/
theorem fixedOdeint_default (step : V → K → K → m (StepOut V)) (tick : m Unit) (φ : V → K → K → V)
    (hstep : ∀ x t dt, ∃ k e, step x t dt = (do tick; pure (.three k (φ x t dt) e)))
    (x : V) (tSpan : List K) (h2 : 2 ≤ tSpan.length) (hsep : Separated tSpan) :
    fixedOdeint torchIsclose step x tSpan [] =
      (do tickN tick (tSpan.length - 1); pure (tSpan, gridStates φ x tSpan)) := by
  match tSpan, h2 with
  | t0 :: t1 :: rest, _ =>
    rw [fixedOdeint_eq step tick φ hstep]
    have e : effSaveAt (t0 :: t1 :: rest) [] = t0 :: t1 :: rest := rfl
    rw [e, if_pos ((assert_iff_separated _).2 hsep)]
    rw [collect_all]
    · simp [gridStates, getItem]
    · intro t ht
      simp only [decide_eq_true_eq]
      exact closeCount_ne_zero.2 ⟨t, ht, torchIsclose_self t⟩
    · rw [gridStates_length]

end whole

/-! ### Naturality of the whole routine (also on failing runs) -/

section naturality

variable {K V W : Type}

/-- A step of the image system is the image of the step, including raised exceptions. -/
def StepCommutes (p : V → W) (stepV : V → K → K → Except PyErr (StepOut V))
    (stepW : W → K → K → Except PyErr (StepOut W)) : Prop :=
  ∀ x t dt, ((stepV x t dt >>= StepOut.unpack3) : Except PyErr _).map (fun r => p r.2.1) =
    ((stepW (p x) t dt >>= StepOut.unpack3) : Except PyErr _).map (fun r => r.2.1)

theorem fixedLoop_map [Add K] [Sub K] (isclose : K → K → Bool) (p : V → W)
    (stepV : V → K → K → Except PyErr (StepOut V)) (stepW : W → K → K → Except PyErr (StepOut W))
    (hs : StepCommutes p stepV stepW) (tSpan saveAt : List K) :
    ∀ (fuel steps : Nat) (t dt : K) (x : V) (sol : List V),
      (fixedLoop isclose stepV tSpan saveAt fuel steps t dt x sol).map (List.map p) =
        fixedLoop isclose stepW tSpan saveAt fuel steps t dt (p x) (sol.map p) := by
  intro fuel
  induction fuel with
  | zero => intro steps t dt x sol; rfl
  | succ fuel ih =>
    intro steps t dt x sol
    rw [fixedLoop, fixedLoop]
    by_cases hc : steps ≤ tSpan.length - 1
    · rw [if_pos hc, if_pos hc]
      have h := hs x t dt
      rw [← bind_assoc, ← bind_assoc]
      cases h1 : (stepV x t dt >>= StepOut.unpack3 : Except PyErr _) with
      | error e =>
        rw [h1] at h
        cases h2 : (stepW (p x) t dt >>= StepOut.unpack3 : Except PyErr _) with
        | error e' =>
          rw [h2] at h
          simp only [Except.map] at h
          cases h; rfl
        | ok r' => rw [h2] at h; simp [Except.map] at h
      | ok r =>
        rw [h1] at h
        cases h2 : (stepW (p x) t dt >>= StepOut.unpack3 : Except PyErr _) with
        | error e' => rw [h2] at h; simp [Except.map] at h
        | ok r' =>
          rw [h2] at h
          simp only [Except.map, Except.ok.injEq] at h
          obtain ⟨a, y, b⟩ := r
          obtain ⟨a', y', b'⟩ := r'
          simp only at h
          subst h
          simp only [bind, Except.bind]
          have hsol : ∀ c : Prop, [Decidable c] →
              (if c then sol ++ [y] else sol).map p = if c then sol.map p ++ [p y] else sol.map p := by
            intro c _; split <;> simp
          split
          · cases (getItem tSpan (steps + 1) : Except PyErr K) with
            | error e => rfl
            | ok v => simp only [pure, Except.pure]; rw [ih, hsol]
          · simp only [pure, Except.pure]; rw [ih, hsol]
    · rw [if_neg hc, if_neg hc]; rfl

theorem fixedOdeint_map [Add K] [Sub K] (isclose : K → K → Bool) (p : V → W)
    (stepV : V → K → K → Except PyErr (StepOut V)) (stepW : W → K → K → Except PyErr (StepOut W))
    (hs : StepCommutes p stepV stepW) (x : V) (tSpan saveAt : List K) :
    (fixedOdeint isclose stepV x tSpan saveAt).map (fun r => (r.1, r.2.map p)) =
      fixedOdeint isclose stepW (p x) tSpan saveAt := by
  simp only [fixedOdeint]
  generalize (if saveAt.length = 0 then tSpan else saveAt) = sa
  split
  · cases h0 : (getItem tSpan 0 : Except PyErr K) with
    | error e => rfl
    | ok t0 =>
      cases h1 : (getItem tSpan 1 : Except PyErr K) with
      | error e => rfl
      | ok t1 =>
        simp only [bind, Except.bind]
        have hl := fixedLoop_map isclose p stepV stepW hs tSpan sa tSpan.length 1 t0 (t1 - t0) x
          (if closeCount isclose t0 sa ≠ 0 then [x] else [])
        have hsol : (if closeCount isclose t0 sa ≠ 0 then [x] else []).map p =
            if closeCount isclose t0 sa ≠ 0 then [p x] else [] := by split <;> rfl
        rw [hsol] at hl
        rw [← hl]
        cases fixedLoop isclose stepV tSpan sa tSpan.length 1 t0 (t1 - t0) x
          (if closeCount isclose t0 sa ≠ 0 then [x] else []) with
        | error e => rfl
        | ok sol => cases sol <;> rfl
  · rfl

end naturality

end Torchdyn
