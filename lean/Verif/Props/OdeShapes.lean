import Verif.Model.OdeShapes
import Verif.Props.SdeShapes

/-!
Property C139: the shapes of fields and states in `odeint`.
-/

set_option linter.unusedSectionVars false
set_option linter.unusedSimpArgs false

namespace Spec

/-- A tensor of shape `a` can be expanded to the shape `s`: aligned at the last axis, each axis of `a` has the length of
the axis of `s`, or one. -/
def ExpandsTo (a s : List ℕ) : Prop :=
  a.length ≤ s.length ∧ ∀ k, k < a.length → a.reverse[k]? = s.reverse[k]? ∨ a.reverse[k]? = some 1

end Spec

namespace Torchdyn

open Spec

/-! ### Broadcasting -/

theorem broadcastRev_cons_self {x y : ℕ} {s a : List ℕ} :
    broadcastRev (x :: s) (y :: a) = some (x :: s) ↔ (y = x ∨ y = 1) ∧ broadcastRev s a = some s := by
  rw [broadcastRev]
  by_cases h : x = y ∨ y = 1
  · rw [if_pos h]
    have : y = x ∨ y = 1 := h.imp Eq.symm id
    simp [this, Option.map_eq_some_iff]
  · rw [if_neg h]
    have h1 : ¬ (y = x ∨ y = 1) := fun h' => h (h'.imp Eq.symm id)
    simp only [h1, false_and, iff_false]
    split
    · intro hc
      obtain ⟨v, -, hv⟩ := Option.map_eq_some_iff.1 hc
      have : y = x := (List.cons.inj hv).1
      exact h1 (.inl this)
    · simp

theorem broadcastRev_nil (s : List ℕ) : broadcastRev s [] = some s := by cases s <;> rfl

theorem broadcastRev_eq_self : ∀ s a : List ℕ, broadcastRev s a = some s ↔
    a.length ≤ s.length ∧ ∀ k, k < a.length → a[k]? = s[k]? ∨ a[k]? = some 1
  | s, [] => by simp [broadcastRev_nil]
  | [], b :: a => by simp [broadcastRev]
  | x :: s, y :: a => by
    rw [broadcastRev_cons_self, broadcastRev_eq_self s a]
    constructor
    · rintro ⟨h0, hl, hk⟩
      refine ⟨by simpa using hl, fun k hk' => ?_⟩
      cases k with
      | zero => simpa using h0
      | succ k => simpa using hk k (by simpa using hk')
    · rintro ⟨hl, hk⟩
      refine ⟨by simpa using hk 0 (by simp), by simpa using hl, fun k hk' => ?_⟩
      simpa using hk (k + 1) (by simpa using hk')

/-- The result of an operation of a tensor of shape `s` with one of shape `a` has shape `s` exactly when `a` can be expanded
to `s`. -/
theorem broadcastShape_eq_self (s a : List ℕ) : broadcastShape s a = some s ↔ ExpandsTo a s := by
  have : broadcastShape s a = some s ↔ broadcastRev s.reverse a.reverse = some s.reverse := by
    unfold broadcastShape
    rw [Option.map_eq_some_iff]
    constructor
    · rintro ⟨v, hv, h⟩
      rw [hv, ← h, List.reverse_reverse]
    · intro h
      exact ⟨_, h, List.reverse_reverse s⟩
  rw [this, broadcastRev_eq_self, ExpandsTo, List.length_reverse, List.length_reverse]

theorem broadcastRev_left : ∀ s a b u : List ℕ, broadcastRev a b = some u → broadcastRev s u = some s →
    broadcastRev s a = some s
  | s, [], b, u, _, _ => broadcastRev_nil s
  | s, x :: a, [], u, h, hs => by
    simp only [broadcastRev, Option.some.injEq] at h
    rwa [h]
  | [], x :: a, y :: b, u, h, hs => by
    have := broadcastRev_length _ _ _ h
    have h2 := (broadcastRev_eq_self [] u).1 hs
    simp only [List.length_cons, List.length_nil] at this h2
    omega
  | z :: s, x :: a, y :: b, u, h, hs => by
    rw [broadcastRev] at h
    split at h
    · obtain ⟨v, hv, rfl⟩ := Option.map_eq_some_iff.1 h
      rw [broadcastRev_cons_self] at hs ⊢
      exact ⟨hs.1, broadcastRev_left s a b v hv hs.2⟩
    · split at h
      · rename_i hx
        obtain ⟨v, hv, rfl⟩ := Option.map_eq_some_iff.1 h
        rw [broadcastRev_cons_self] at hs ⊢
        exact ⟨.inr hx, broadcastRev_left s a b v hv hs.2⟩
      · cases h

theorem broadcast_left {s a b u : List ℕ} (h : broadcastShape a b = some u) (hs : broadcastShape s u = some s) :
    broadcastShape s a = some s := by
  obtain ⟨v, hv, rfl⟩ := Option.map_eq_some_iff.1 h
  obtain ⟨w, hw, h2⟩ := Option.map_eq_some_iff.1 hs
  rw [List.reverse_reverse] at hw
  have hw' : w = s.reverse := by rw [← h2, List.reverse_reverse]
  subst hw'
  unfold broadcastShape
  rw [broadcastRev_left _ _ _ _ hv hw]
  simp

section

variable {K : Type}

theorem STensor.bin_shape {op : K → K → K} {a b c : STensor K} (h : a.bin op b = .ok c) :
    broadcastShape a.shape b.shape = some c.shape := by
  unfold STensor.bin at h
  split at h
  · cases h
  · rename_i s hs
    cases h
    exact hs

variable [Field K]

theorem axpy_expand {s s' : List ℕ} (hb : broadcastShape s s' = some s) (u v : List ℕ → K) (c : K) :
    (STensor.mk s u).axpy c ⟨s', v⟩ = .ok ⟨s, fun i => u i + c * v (broadcastIndex s' s i)⟩ := by
  have : ∀ i, broadcastIndex s s i = i := fun i => if_pos rfl
  simp only [STensor.axpy, STensor.bin, STensor.map, hb, this]

theorem axpy_shape {x k y : STensor K} {c : K} (h : x.axpy c k = .ok y) : broadcastShape x.shape k.shape = some y.shape :=
  STensor.bin_shape (b := k.map (c * ·)) h

/-- The field on arrays of the shape of the state: entries of `g` expanded from shape `s'` to `s`. -/
def expandedField (s s' : List ℕ) (g : K → (List ℕ → K) → (List ℕ → K)) : K → (List ℕ → K) → (List ℕ → K) :=
  fun t v i => g t v (broadcastIndex s' s i)

/-- `a[0] * k` with `a[0]` of shape `(1,)`: on states with at least one axis it acts as a number. -/
theorem row_expand {s s' : List ℕ} (hs : s ≠ []) (hb : broadcastShape s s' = some s) (a : K) (v : List ℕ → K) :
    ∃ w, (STensor.row a).bin (· * ·) ⟨s', v⟩ = .ok w ∧
      ∀ (u : List ℕ → K) (c : K), (STensor.mk s u).axpy c w = .ok ⟨s, fun i => u i + c * (a * v (broadcastIndex s' s i))⟩ := by
  by_cases h : s' = []
  · subst h
    refine ⟨⟨[1], fun i => a * v (broadcastIndex [] [1] i)⟩, rfl, fun u c => ?_⟩
    have h1 : broadcastShape s [1] = some s := by
      rw [broadcastShape_eq_self]
      refine ⟨?_, fun k hk => .inr ?_⟩
      · cases s with
        | nil => exact absurd rfl hs
        | cons x s => simp
      · have : k = 0 := by simpa using hk
        subst this
        rfl
    rw [axpy_expand h1]
    congr 2
    funext i
    have hnil : ∀ r i, r ≠ [] → broadcastIndex [] r i = [] := fun r i hr => by
      rw [broadcastIndex, if_neg (Ne.symm hr)]
      simp
    rw [hnil s i hs, hnil [1] _ (by simp)]
  · have h1 : broadcastShape [1] s' = some s' := by
      have hrev : ∃ b l, s'.reverse = b :: l := by
        cases hr : s'.reverse with
        | nil => exact absurd (List.reverse_eq_nil_iff.1 hr) h
        | cons b l => exact ⟨b, l, rfl⟩
      obtain ⟨b, l, hr⟩ := hrev
      have hs' : s' = (b :: l).reverse := by rw [← hr, List.reverse_reverse]
      unfold broadcastShape
      rw [hr, hs']
      by_cases hb1 : (1 = b ∨ b = 1)
      · have hb1 : b = 1 := by rcases hb1 with h | h <;> omega
        subst hb1
        simp [broadcastRev]
      · simp [broadcastRev, hb1]
    refine ⟨⟨s', fun i => a * v i⟩, ?_, fun u c => axpy_expand hb u _ c⟩
    have hself : ∀ i, broadcastIndex s' s' i = i := fun i => if_pos rfl
    simp only [STensor.bin, STensor.row, h1, hself]

theorem shapedStep_commutes (method : FixedMethod) (s s' : List ℕ) (hb : broadcastShape s s' = some s)
    (hs : method = .rk4 → s ≠ [])
    (f : K → STensor K → Except PyErr (STensor K)) (g : K → (List ℕ → K) → (List ℕ → K))
    (hf : ∀ t v, f t ⟨s, v⟩ = .ok ⟨s', g t v⟩) :
    StepCommutes (STensor.mk s)
      (fun x t dt => (method.solver (List ℕ → K) Unit).step (pureField (expandedField s s' g)) x t dt none ())
      (method.shapedStep f) := by
  intro x t dt
  cases method with
  | euler =>
    simp only [FixedMethod.solver, eulerSolver, eulerStep, firstStage, FixedMethod.shapedStep, eulerShapedStep, hf, pureField,
      axpy_expand hb, bind, Except.bind, pure, Except.pure, StepOut.unpack3, Except.map]
    congr 2
  | midpoint =>
    simp only [FixedMethod.solver, midpointSolver, midpointStep, firstStage, FixedMethod.shapedStep, midpointShapedStep, hf,
      pureField, axpy_expand hb, bind, Except.bind, pure, Except.pure, StepOut.unpack3, Except.map]
    congr 2
  | rk4 =>
    obtain ⟨w, hw, hax⟩ := row_expand (hs rfl) hb (nth2 (constructRk4 K).a 0 0) (g t x)
    simp only [FixedMethod.solver, rk4Solver, rk4Step, firstStage, FixedMethod.shapedStep, rk4ShapedStep, hf, pureField, hw, hax,
      axpy_expand hb, STensor.map, STensor.bin_same, bind, Except.bind, pure, Except.pure, StepOut.unpack3, Except.map]
    congr 2

variable [LinearOrder K] [IsStrictOrderedRing K]

/-- **C139**, expansion **(partial: with `rk4` the state has at least one axis, see `C139_scalar_refuted`)**: a field whose values have a shape that can be expanded to the shape of the state (such as the rows
`(1, dim)` of the Fourier systems, or a constant of shape `()`) is integrated as the expanded field, by `euler`, `midpoint` and
`rk4`, on every grid in both directions and with every `save_at`: the same times, the same entries, the same exceptions, and
states of the shape of `x`. -/
theorem C139_expanded_partial (method : FixedMethod) (s s' : List ℕ) (hb : ExpandsTo s' s) (hs : method = .rk4 → s ≠ [])
    (f : K → STensor K → Except PyErr (STensor K)) (g : K → (List ℕ → K) → (List ℕ → K))
    (hf : ∀ t v, f t ⟨s, v⟩ = .ok ⟨s', g t v⟩) (v : List ℕ → K) (tSpan saveAt : List K) :
    odeintShaped method f ⟨s, v⟩ tSpan saveAt =
      (odeintFixed (pureField (expandedField s s' g)) v tSpan (method.solver (List ℕ → K) Unit) saveAt ()).map
        (fun r => (r.1, r.2.map (STensor.mk s))) := by
  have hb := (broadcastShape_eq_self s s').2 hb
  have key : ∀ (f' : K → STensor K → Except PyErr (STensor K)) (g' : K → (List ℕ → K) → (List ℕ → K)) (ts : List K),
      (∀ t v, f' t ⟨s, v⟩ = .ok ⟨s', g' t v⟩) →
      (fixedOdeint torchIsclose (method.shapedStep f') ⟨s, v⟩ ts saveAt >>= fun r => stackTensors r.2 >>= fun sol =>
        pure (r.1, sol)) =
      (fixedOdeint torchIsclose (fun x t dt => (method.solver (List ℕ → K) Unit).step (pureField (expandedField s s' g')) x t dt
        none ()) v ts saveAt).map (fun r => (r.1, r.2.map (STensor.mk s))) := by
    intro f' g' ts hf'
    rw [← fixedOdeint_map torchIsclose (STensor.mk s) _ _ (shapedStep_commutes method s s' hb hs f' g' hf')]
    cases fixedOdeint torchIsclose (fun x t dt => (method.solver (List ℕ → K) Unit).step (pureField (expandedField s s' g')) x t
      dt none ()) v ts saveAt with
    | error e => rfl
    | ok r =>
      show (stackTensors (r.2.map (STensor.mk s)) >>= fun sol => pure (r.1, sol)) = _
      rw [stack_same]
      rfl
  rcases tSpan with _ | ⟨t0, _ | ⟨t1, rest⟩⟩
  · rfl
  · rfl
  by_cases h : t1 < t0
  · have hrev : reverseField (m := Except PyErr) (pureField (expandedField s s' g)) =
        pureField (expandedField s s' (fun t v i => - g (-t) v i)) := by
      funext t x
      rfl
    have := key (fun t x => (f (-t) x).map (STensor.map (- ·))) (fun t v i => - g (-t) v i)
      ((t0 :: t1 :: rest).map (fun t => -t)) (fun t v => by rw [hf]; rfl)
    simp only [odeintShaped, odeintFixed, odeintDirection, getItem, List.getElem?_cons_zero, List.getElem?_cons_succ, h, if_true,
      bind, Except.bind, pure, Except.pure] at this ⊢
    rw [hrev]
    exact this
  · have := key f g (t0 :: t1 :: rest) hf
    simp only [odeintShaped, odeintFixed, odeintDirection, getItem, List.getElem?_cons_zero, List.getElem?_cons_succ, h, if_false,
      bind, Except.bind, pure, Except.pure] at this ⊢
    exact this

/-- Expanding rows: entry `(i, j)` of a `(b, d)` tensor uses entry `(0, j)` of a `(1, d)` tensor. -/
theorem broadcastIndex_row (b d i j : ℕ) (hi : i < b) (hj : j < d) : broadcastIndex [1, d] [b, d] [i, j] = [0, j] := by
  unfold broadcastIndex
  split
  · rename_i h
    simp only [List.cons.injEq, and_true] at h
    have : i = 0 := by omega
    rw [this]
  · simp
    omega

/-- What a returning run looks like: the start, the first step, then more states. -/
theorem odeintShaped_ok {method : FixedMethod} {f : K → STensor K → Except PyErr (STensor K)} {x : STensor K} {t0 t1 : K}
    {rest : List K} {r : List K × List (STensor K)} (h : odeintShaped method f x (t0 :: t1 :: rest) [] = .ok r) :
    ∃ f' t dt o y ys, (∀ z k, f' t z = .ok k → ∃ k', f t0 z = .ok k' ∧ k'.shape = k.shape) ∧
      (∀ τ z k, f' τ z = .ok k → ∃ τ' k', f τ' z = .ok k' ∧ k'.shape = k.shape) ∧
      method.shapedStep f' x t dt = .ok o ∧ o.unpack3 = (.ok (none, y, none) : Except PyErr _) ∧ r.2 = x :: y :: ys ∧
      ∀ z ∈ r.2, z.shape = x.shape := by
  have main : ∀ (f' : K → STensor K → Except PyErr (STensor K)) (u0 u1 : K) (us : List K),
      (fixedOdeint torchIsclose (method.shapedStep f') x (u0 :: u1 :: us) [] >>= fun r => stackTensors r.2 >>= fun sol =>
        pure (r.1, sol)) = (.ok r : Except PyErr _) →
      ∃ o y ys, method.shapedStep f' x u0 (u1 - u0) = .ok o ∧ o.unpack3 = (.ok (none, y, none) : Except PyErr _) ∧
        r.2 = x :: y :: ys ∧ ∀ z ∈ r.2, z.shape = x.shape := by
    intro f' u0 u1 us h
    obtain ⟨⟨ts, sol⟩, hrun, h⟩ := except_bind_ok h
    obtain ⟨sol', hst, h⟩ := except_bind_ok h
    cases h
    unfold fixedOdeint at hrun
    simp only [List.length_nil, if_true] at hrun
    split at hrun
    swap
    · cases hrun
    obtain ⟨t, ht, hrun⟩ := except_bind_ok hrun
    cases ht
    obtain ⟨t', ht', hrun⟩ := except_bind_ok hrun
    cases ht'
    obtain ⟨sol₁, hloop, hrun⟩ := except_bind_ok hrun
    obtain ⟨y₀, -, hrun⟩ := except_bind_ok hrun
    cases hrun
    have hc : ∀ t ∈ u0 :: u1 :: us, closeCount torchIsclose t (u0 :: u1 :: us) ≠ 0 := by
      intro t ht
      exact closeCount_ne_zero.2 ⟨t, ht, torchIsclose_self t⟩
    rw [if_pos (hc u0 (by simp))] at hloop
    rw [show (u0 :: u1 :: us).length = us.length + 1 + 1 from rfl, fixedLoop, if_pos (by simp)] at hloop
    obtain ⟨o, ho, hloop⟩ := except_bind_ok hloop
    obtain ⟨⟨k, y, e⟩, hu, hloop⟩ := except_bind_ok hloop
    dsimp only at hloop
    obtain ⟨d, hloop⟩ : ∃ d, fixedLoop torchIsclose (method.shapedStep f') (u0 :: u1 :: us) (u0 :: u1 :: us) (us.length + 1)
        (1 + 1) (u0 + (u1 - u0)) d y
        (if closeCount torchIsclose (u0 + (u1 - u0)) (u0 :: u1 :: us) ≠ 0 then [x] ++ [y] else [x]) = .ok sol := by
      split at hloop
      · obtain ⟨tn, -, h⟩ := except_bind_ok hloop
        exact ⟨_, h⟩
      · exact ⟨_, hloop⟩
    obtain ⟨ys, hys⟩ := fixedLoop_prefix _ _ _ _ _ _ _ _ _ _ _ hloop
    rw [add_sub_cancel, if_pos (hc u1 (by simp))] at hys
    have hnone : k = none ∧ e = none := by
      cases method
      · obtain ⟨k1, -, ho⟩ := except_bind_ok ho
        obtain ⟨xs, -, ho⟩ := except_bind_ok ho
        cases ho; cases hu; exact ⟨rfl, rfl⟩
      · obtain ⟨k1, -, ho⟩ := except_bind_ok ho
        obtain ⟨xs, -, ho⟩ := except_bind_ok ho
        obtain ⟨k2, -, ho⟩ := except_bind_ok ho
        obtain ⟨xs, -, ho⟩ := except_bind_ok ho
        cases ho; cases hu; exact ⟨rfl, rfl⟩
      · repeat' (obtain ⟨_, -, ho⟩ := except_bind_ok ho)
        cases ho; cases hu; exact ⟨rfl, rfl⟩
    obtain ⟨rfl, rfl⟩ := hnone
    rw [hys] at hst
    simp only [List.cons_append, List.nil_append, stackTensors] at hst
    split at hst
    · rename_i hall
      cases hst
      refine ⟨o, y, ys, ho, hu, rfl, ?_⟩
      intro z hz
      rcases List.mem_cons.1 hz with rfl | hz
      · rfl
      · have := List.all_eq_true.1 hall z hz
        simpa using this
    · cases hst
  by_cases hlt : t1 < t0
  · have h' : (fixedOdeint torchIsclose (method.shapedStep (fun t x => (f (-t) x).map (STensor.map (- ·)))) x
        (-t0 :: -t1 :: rest.map (fun t => -t)) [] >>= fun r => stackTensors r.2 >>= fun sol => pure (r.1, sol)) =
        (.ok r : Except PyErr _) := by
      simpa only [odeintShaped, getItem, List.getElem?_cons_zero, List.getElem?_cons_succ, hlt, if_true,
        bind, Except.bind, pure, Except.pure, List.map_cons] using h
    obtain ⟨o, y, ys, h1, h2, h3, h4⟩ := main _ _ _ _ h'
    have hsh : ∀ τ z k, (f (-τ) z).map (STensor.map (- ·)) = .ok k → ∃ k', f (-τ) z = .ok k' ∧ k'.shape = k.shape := by
      intro τ z k hk
      cases hfz : f (-τ) z with
      | error e => rw [hfz] at hk; cases hk
      | ok k' =>
        rw [hfz] at hk
        cases hk
        exact ⟨k', rfl, rfl⟩
    refine ⟨_, -t0, _, o, y, ys, ?_, fun τ z k hk => ⟨-τ, hsh τ z k hk⟩, h1, h2, h3, h4⟩
    intro z k hk
    have := hsh (-t0) z k hk
    rwa [neg_neg] at this
  · have h' : (fixedOdeint torchIsclose (method.shapedStep f) x (t0 :: t1 :: rest) [] >>= fun r => stackTensors r.2 >>=
        fun sol => pure (r.1, sol)) = (.ok r : Except PyErr _) := by
      simpa only [odeintShaped, getItem, List.getElem?_cons_zero, List.getElem?_cons_succ, hlt, if_false,
        bind, Except.bind, pure, Except.pure] using h
    obtain ⟨o, y, ys, h1, h2, h3, h4⟩ := main _ _ _ _ h'
    exact ⟨f, t0, _, o, y, ys, fun z k hk => ⟨k, hk, rfl⟩, fun τ z k hk => ⟨τ, k, hk, rfl⟩, h1, h2, h3, h4⟩

/-- **C139 (partial: without `save_at`, see `C139_save_at_refuted`).** Whatever the field returns, a call that returns gives
states of the shape of `x`. -/
theorem C139_shape_partial (method : FixedMethod) (f : K → STensor K → Except PyErr (STensor K)) (x : STensor K)
    (tSpan : List K) (r : List K × List (STensor K)) (h : odeintShaped method f x tSpan [] = .ok r) :
    ∀ y ∈ r.2, y.shape = x.shape := by
  rcases tSpan with _ | ⟨t0, _ | ⟨t1, rest⟩⟩
  · cases h
  · cases h
  · obtain ⟨_, _, _, _, _, _, _, _, _, _, _, h⟩ := odeintShaped_ok h
    exact h

/-- **C139 (partial: without `save_at`, see `C139_save_at_refuted`).** A field whose value at the start has a shape that cannot
be expanded to the shape of the state — `(n,)` for a state `(n, 1)`, say, or a batch of the wrong size — makes `euler` and `rk4`
raise; with `midpoint`, whose result only contains the second evaluation, a field all of whose values are so. -/
theorem C139_raises_partial (method : FixedMethod) (f : K → STensor K → Except PyErr (STensor K)) (x : STensor K) (t0 t1 : K)
    (rest : List K)
    (hf : if method = .midpoint then ∀ t y k, f t y = .ok k → ¬ ExpandsTo k.shape x.shape
      else ∀ k, f t0 x = .ok k → ¬ ExpandsTo k.shape x.shape) :
    ∃ e, odeintShaped method f x (t0 :: t1 :: rest) [] = .error e := by
  cases h : odeintShaped method f x (t0 :: t1 :: rest) [] with
  | error e => exact ⟨e, rfl⟩
  | ok r =>
    exfalso
    obtain ⟨f', t, dt, o, y, ys, hstart, hany, ho, hu, hr, hsh⟩ := odeintShaped_ok h
    have hy : y.shape = x.shape := hsh y (by rw [hr]; simp)
    cases method with
    | euler =>
      obtain ⟨k1, hk, ho⟩ := except_bind_ok ho
      obtain ⟨xs, hxs, ho⟩ := except_bind_ok ho
      cases ho
      cases hu
      obtain ⟨k', hk', hks⟩ := hstart _ _ hk
      have := axpy_shape hxs
      rw [hy, broadcastShape_eq_self, ← hks] at this
      exact hf k' hk' this
    | midpoint =>
      obtain ⟨k1, -, ho⟩ := except_bind_ok ho
      obtain ⟨xm, -, ho⟩ := except_bind_ok ho
      obtain ⟨k2, hk, ho⟩ := except_bind_ok ho
      obtain ⟨xs, hxs, ho⟩ := except_bind_ok ho
      cases ho
      cases hu
      obtain ⟨τ, k', hk', hks⟩ := hany _ _ _ hk
      have := axpy_shape hxs
      rw [hy, broadcastShape_eq_self, ← hks] at this
      exact hf _ _ _ hk' this
    | rk4 =>
      obtain ⟨k1, hk, ho⟩ := except_bind_ok ho
      obtain ⟨s2, -, ho⟩ := except_bind_ok ho
      obtain ⟨x2, -, ho⟩ := except_bind_ok ho
      obtain ⟨k2, -, ho⟩ := except_bind_ok ho
      obtain ⟨s3, -, ho⟩ := except_bind_ok ho
      obtain ⟨x3, -, ho⟩ := except_bind_ok ho
      obtain ⟨k3, -, ho⟩ := except_bind_ok ho
      obtain ⟨s4, -, ho⟩ := except_bind_ok ho
      obtain ⟨s4', -, ho⟩ := except_bind_ok ho
      obtain ⟨x4, -, ho⟩ := except_bind_ok ho
      obtain ⟨k4, -, ho⟩ := except_bind_ok ho
      obtain ⟨a, ha, ho⟩ := except_bind_ok ho
      obtain ⟨b, hb, ho⟩ := except_bind_ok ho
      obtain ⟨c, hc, ho⟩ := except_bind_ok ho
      obtain ⟨xs, hxs, ho⟩ := except_bind_ok ho
      cases ho
      cases hu
      obtain ⟨k', hk', hks⟩ := hstart _ _ hk
      have h1 := axpy_shape hxs
      rw [hy] at h1
      have h2 := broadcast_left (STensor.bin_shape hc) h1
      have h3 := broadcast_left (STensor.bin_shape hb) h2
      have h4 := broadcast_left (STensor.bin_shape ha) h3
      have h5 := (broadcastShape_eq_self _ _).1 h4
      simp only [STensor.map] at h5
      rw [← hks] at h5
      exact hf k' hk' h5

/-- **C139 is false** for zero-dimensional states with `rk4`: the first row `a[0]` of its tableau has shape `(1,)`, so the second
stage and the new state have shape `(1,)`, and `torch.stack` raises. Every field whose values have the shape of its argument, every
state of shape `()` and every grid of two or more times. (`euler` and `midpoint` integrate such states: `C139_expanded_partial` with
`s = []`.) -/
theorem C139_scalar_refuted (f : K → STensor K → Except PyErr (STensor K)) (hf : ∀ t y k, f t y = .ok k → k.shape = y.shape)
    (v : List ℕ → K) (t0 t1 : K) (rest : List K) :
    ∃ e, odeintShaped .rk4 f ⟨[], v⟩ (t0 :: t1 :: rest) [] = .error e := by
  cases h : odeintShaped .rk4 f ⟨[], v⟩ (t0 :: t1 :: rest) [] with
  | error e => exact ⟨e, rfl⟩
  | ok r =>
    exfalso
    obtain ⟨f', t, dt, o, y, ys, -, hany, ho, hu, hr, hsh⟩ := odeintShaped_ok h
    have hy : y.shape = [] := hsh y (by rw [hr]; simp)
    have hf' : ∀ τ z k, f' τ z = .ok k → k.shape = z.shape := by
      intro τ z k hk
      obtain ⟨τ', k', hk', hks⟩ := hany _ _ _ hk
      rw [← hks]
      exact hf _ _ _ hk'
    obtain ⟨k1, hk1, ho⟩ := except_bind_ok ho
    obtain ⟨s2, hs2, ho⟩ := except_bind_ok ho
    obtain ⟨x2, hx2, ho⟩ := except_bind_ok ho
    obtain ⟨k2, hk2, ho⟩ := except_bind_ok ho
    obtain ⟨s3, -, ho⟩ := except_bind_ok ho
    obtain ⟨x3, -, ho⟩ := except_bind_ok ho
    obtain ⟨k3, -, ho⟩ := except_bind_ok ho
    obtain ⟨s4, -, ho⟩ := except_bind_ok ho
    obtain ⟨s4', -, ho⟩ := except_bind_ok ho
    obtain ⟨x4, -, ho⟩ := except_bind_ok ho
    obtain ⟨k4, -, ho⟩ := except_bind_ok ho
    obtain ⟨a, ha, ho⟩ := except_bind_ok ho
    obtain ⟨b, hb, ho⟩ := except_bind_ok ho
    obtain ⟨c, hc, ho⟩ := except_bind_ok ho
    obtain ⟨xs, hxs, ho⟩ := except_bind_ok ho
    cases ho
    cases hu
    have e1 : k1.shape = [] := hf' _ _ _ hk1
    have e2 : s2.shape = [1] := by
      have := STensor.bin_shape hs2
      rw [e1] at this
      exact (Option.some.inj this).symm
    have e3 : x2.shape = [1] := by
      have := axpy_shape hx2
      rw [e2] at this
      exact (Option.some.inj this).symm
    have e4 : k2.shape = [1] := (hf' _ _ _ hk2).trans e3
    have e5 : a.shape = [1] := by
      have := STensor.bin_shape ha
      simp only [STensor.map, e1, e4] at this
      exact (Option.some.inj this).symm
    have h1 := axpy_shape hxs
    rw [hy] at h1
    have h2 := broadcast_left (STensor.bin_shape hc) h1
    have h3 := broadcast_left (STensor.bin_shape hb) h2
    rw [e5] at h3
    cases h3

end

/-- The field `lambda t, x: x[..., 0]` (a missing axis), on rationals. -/
def dropAxisField (_t : ℚ) (x : STensor ℚ) : Except PyErr (STensor ℚ) :=
  .ok ⟨x.shape.dropLast, fun i => x.val (i ++ [0])⟩

/-- **C139 is false** with `save_at`: when the initial time is not among the times to save, nothing compares the shapes. For a
state of shape `(n, 1)` the field `x[..., 0]` has shape `(n,)`, the sum with the state has shape `(n, n)`, and `odeint` with
`euler` on `[0, 1]` and `save_at = [1]` returns this matrix, for every `n`; without `save_at` the same call raises for `n ≥ 2`. -/
theorem C139_save_at_refuted (n : ℕ) (v : List ℕ → ℚ) :
    (∃ y, odeintShaped .euler dropAxisField ⟨[n, 1], v⟩ [0, 1] [1] = .ok ([1], [y]) ∧ y.shape = [n, n]) ∧
    (2 ≤ n → ∃ e, odeintShaped .euler dropAxisField ⟨[n, 1], v⟩ [0, 1] [] = .error e) := by
  constructor
  · have hc0 : closeCount torchIsclose (0 : ℚ) [1] = 0 := by decide +kernel
    have hc1 : closeCount torchIsclose (1 : ℚ) [1] = 1 := by decide +kernel
    have h10 : ¬ (1 : ℚ) < 0 := by decide +kernel
    have hb : broadcastShape [n, 1] [n] = some [n, n] := by
      unfold broadcastShape
      by_cases h1 : 1 = n
      · subst h1; rfl
      · simp [broadcastRev, h1]
        intro h; omega
    refine ⟨⟨[n, n], fun i => v (broadcastIndex [n, 1] [n, n] i) + 1 * v (broadcastIndex [n] [n, n] i ++ [0])⟩, ?_, rfl⟩
    · simp [odeintShaped, getItem, bind, Except.bind, pure, Except.pure, fixedOdeint, fixedLoop, hc0, hc1, h10,
        FixedMethod.shapedStep, eulerShapedStep, dropAxisField, STensor.axpy, STensor.bin, STensor.map, hb, StepOut.unpack3,
        stackTensors]
  · intro hn
    apply C139_raises_partial
    rw [if_neg (by decide)]
    intro k hk
    cases hk
    rintro ⟨-, h⟩
    have := h 0 (by simp)
    simp at this
    omega

/-- C139 applied: a state of shape `(b, d)` and a field with values of shape `(1, d)` (the Fourier systems). -/
example (b d : ℕ) (g : ℚ → (List ℕ → ℚ) → (List ℕ → ℚ)) (v : List ℕ → ℚ) (tSpan saveAt : List ℚ) :
    odeintShaped .rk4 (fun t x => .ok ⟨[1, d], g t x.val⟩) ⟨[b, d], v⟩ tSpan saveAt =
      (odeintFixed (pureField (expandedField [b, d] [1, d] g)) v tSpan (FixedMethod.rk4.solver (List ℕ → ℚ) Unit) saveAt ()).map
        (fun r => (r.1, r.2.map (STensor.mk [b, d]))) :=
  C139_expanded_partial .rk4 [b, d] [1, d] ⟨by simp, fun k hk => by
    have : k = 0 ∨ k = 1 := by simp at hk; omega
    rcases this with rfl | rfl <;> simp⟩ (by simp) _ g (fun _ _ => rfl) v tSpan saveAt

/-- A run: a state of two rows, a constant row as field, two steps. -/
example : (odeintShaped .midpoint (fun _ _ => .ok ⟨[1, 1], fun _ => 3⟩) ⟨[2, 1], fun i => ((i.headD 0 : ℕ) : ℚ)⟩ [0, 1, 2] []).map
    (fun r => r.2.map (fun y => (y.shape, y.val [0, 0], y.val [1, 0]))) =
    (Except.ok [([2, 1], 0, 1), ([2, 1], 3, 4), ([2, 1], 6, (7 : ℚ))]) := by decide +kernel

/-- C139_scalar_refuted is about runs that other methods complete: `x' = x` from a zero-dimensional state. -/
example : (odeintShaped .rk4 (fun _ x => .ok x) ⟨[], fun _ => (1 : ℚ)⟩ [0, 1] []).map (fun r => r.2.map (fun y => y.val [])) =
      .error .runtimeError ∧
    (odeintShaped .euler (fun _ x => .ok x) ⟨[], fun _ => (1 : ℚ)⟩ [0, 1] []).map (fun r => r.2.map (fun y => (y.shape, y.val []))) =
      .ok [([], 1), ([], 2)] := by
  constructor <;> decide +kernel

end Torchdyn
