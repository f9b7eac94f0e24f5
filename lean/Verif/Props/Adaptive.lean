import Verif.Proofs.AdaptiveApi
import Mathlib.Tactic.IntervalCases

/-!
Properties C21–C26 of `odeint` with adaptive solvers, for every solver object satisfying
`Spec.FsalSolver` (in particular `dopri5` and `tsit5`), every vector field and every tolerance.

`odeint fuel …` performs at most `fuel` tests of the loop condition: the result is `.ok none` when
the loop has not finished by then. The theorems hold for every `fuel`; `C21_fuel_irrelevant` says that
a finished result does not depend on it. Divisions by a zero error scale (`atol = 0` and a zero entry),
which give NaN in Python, are outside the model: read the statements for `atol > 0`, `rtol ≥ 0`.
-/

set_option linter.unusedSectionVars false
set_option linter.unusedSimpArgs false

namespace Torchdyn

open Spec

variable {ι A : Type} [Fintype ι] {solver : Solver (Except PyErr) ℝ (ι → ℝ) A} {args : A}

/-- The strictly increasing grid `t0 :: t1 :: rest`. -/
def Increasing (ts : List ℝ) : Prop := ts.Pairwise (· < ·)

/-- The common part: an increasing grid, in terms of the loop. -/
theorem adaptive_times (hs : FsalSolver solver args) (f : ℝ → (ι → ℝ) → (ι → ℝ)) (k1 x : ι → ℝ)
    {t0 t1 dt : ℝ} {rest : List ℝ} (hinc : Increasing (t0 :: t1 :: rest)) (hdt : 0 < dt)
    (atol rtol : ℝ) (interp) (rae : Bool) (sel : Finset ι) (fuel : ℕ) :
    ∃ r, adaptiveOdeint (odeintCfg (pureField f) solver args atol rtol sel interp rae) fuel k1 x dt
        (t0 :: t1 :: rest) = .ok r ∧
      ∀ ts xs, r = some (ts, xs) →
        ts.Pairwise (· < ·) ∧ (t0 :: t1 :: rest).Sublist ts ∧
        (rae = false → ts = t0 :: t1 :: rest) ∧ ts.getLast? = (t0 :: t1 :: rest).getLast? ∧
        xs.length = ts.length ∧ xs[0]? = some x ∧ ts[0]? = some t0 := by
  obtain ⟨out, ho1, _, _, had⟩ := hs.out f atol rtol sel interp rae
  obtain ⟨r, hr, h⟩ := adaptiveOdeint_run ho1 had hinc hdt k1 x
    (TimesInv (odeintCfg (pureField f) solver args atol rtol sel interp rae) t0 (t1 :: rest) x)
    (timesInv_init _ _ _ _ _ _)
    (fun T s s' d hT hP hI _ hit _ => timesInv_step (List.pairwise_cons.1 hinc).2 hP hI hit) fuel
  refine ⟨r, hr, ?_⟩
  intro ts xs hts
  obtain ⟨s, rfl, rfl, hP, hl, hc⟩ := h ts xs hts
  have hfull : (t0 :: t1 :: rest).take (s.ckpt + 1) = t0 :: t1 :: rest := by
    rw [hc]; exact List.take_of_length_le (by simp)
  refine ⟨hP.sorted, by rw [← hfull]; exact hP.sub,
    fun hr => by rw [hP.exact_times hr, hfull], ?_, hP.len, hP.head, hP.thead⟩
  rw [getLast?_cons_cons, hl]
  cases rae with
  | true => exact hP.last rfl
  | false => rw [hP.exact_times rfl, hfull, getLast?_cons_cons, hl]

/-- **C21.** Adaptive `odeint` on a strictly increasing grid, with or without interpolator: no
exception is raised, and whenever it returns, the returned times are exactly `t_span`, there is one
state per time, and the first state is `x`. -/
theorem C21_times (hs : FsalSolver solver args) (f : ℝ → (ι → ℝ) → (ι → ℝ)) (x : ι → ℝ)
    (t0 t1 : ℝ) (rest : List ℝ) (hinc : Increasing (t0 :: t1 :: rest)) (atol rtol : ℝ) (ui : Bool)
    (saveAt : List ℝ) (sel : Finset ι) (fuel : ℕ) :
    ∃ r, odeint fuel (pureField f) x (t0 :: t1 :: rest) solver atol rtol ui false saveAt args sel
        = .ok r ∧
      ∀ ts xs, r = some (ts, xs) →
        ts = t0 :: t1 :: rest ∧ xs.length = ts.length ∧ xs[0]? = some x := by
  obtain ⟨dt, hdt, -, e⟩ := odeint_forward fuel f x rest solver hs.adaptive atol rtol ui false saveAt
    args sel (List.pairwise_cons.1 hinc |>.1 t1 (by simp)).le
  rw [e]
  obtain ⟨r, hr, h⟩ := adaptive_times hs f (f t0 x) x hinc hdt atol rtol (odeintInterp solver ui)
    false sel fuel
  refine ⟨r, hr, fun ts xs hts => ?_⟩
  obtain ⟨_, _, h3, _, h5, h6, _⟩ := h ts xs hts
  exact ⟨h3 rfl, h5, h6⟩

theorem increasing_neg {ts : List ℝ} (h : ts.Pairwise (· > ·)) : Increasing (ts.map (fun t => -t)) := by
  unfold Increasing
  rw [List.pairwise_map]
  exact h.imp (fun h => neg_lt_neg h)

/-- **C21**, decreasing grids (integration backwards in time): the same, except that the returned
times are the *negated* requested times, as in the code. -/
theorem C21_times_backward (hs : FsalSolver solver args) (f : ℝ → (ι → ℝ) → (ι → ℝ)) (x : ι → ℝ)
    (t0 t1 : ℝ) (rest : List ℝ) (hdec : (t0 :: t1 :: rest).Pairwise (· > ·)) (atol rtol : ℝ)
    (ui : Bool) (saveAt : List ℝ) (sel : Finset ι) (fuel : ℕ) :
    ∃ r, odeint fuel (pureField f) x (t0 :: t1 :: rest) solver atol rtol ui false saveAt args sel
        = .ok r ∧
      ∀ ts xs, r = some (ts, xs) →
        ts = (t0 :: t1 :: rest).map (fun t => -t) ∧ xs.length = ts.length ∧ xs[0]? = some x := by
  obtain ⟨dt, hdt, e⟩ := odeint_backward fuel f x rest solver hs.adaptive atol rtol ui false saveAt
    args sel (List.pairwise_cons.1 hdec |>.1 t1 (by simp))
  rw [e]
  obtain ⟨r, hr, h⟩ := adaptive_times hs (fun t x => -f (-t) x) (-f (-(-t0)) x) x
    (t0 := -t0) (t1 := -t1) (rest := rest.map (fun t => -t)) (increasing_neg hdec) hdt atol rtol
    (odeintInterp solver ui) false sel fuel
  refine ⟨r, hr, fun ts xs hts => ?_⟩
  obtain ⟨_, _, h3, _, h5, h6, _⟩ := h ts xs hts
  exact ⟨h3 rfl, h5, h6⟩

/-- **C21**, short grids: `IndexError`. -/
theorem C21_short_grid (f : ℝ → (ι → ℝ) → Except PyErr (ι → ℝ)) (x : ι → ℝ) (tSpan : List ℝ)
    (h : tSpan.length < 2) (atol rtol : ℝ) (ui rae : Bool) (saveAt : List ℝ) (sel : Finset ι)
    (fuel : ℕ) :
    odeint fuel f x tSpan solver atol rtol ui rae saveAt args sel = .error .indexError := by
  match tSpan, h with
  | [], _ => rfl
  | [_], _ => rfl

theorem adaptiveLoop_mono (cfg : AdaptiveCfg (Except PyErr) ℝ (ι → ℝ)) (tEval : List ℝ) (T : ℝ)
    (fuel fuel' : ℕ) (hle : fuel ≤ fuel') (s r : AState ℝ (ι → ℝ))
    (h : adaptiveLoop cfg tEval T fuel s = .ok (some r)) :
    adaptiveLoop cfg tEval T fuel' s = .ok (some r) := by
  induction fuel generalizing s fuel' with
  | zero => cases h
  | succ fuel ih =>
    obtain ⟨n, rfl⟩ : ∃ n, fuel' = n + 1 := ⟨fuel' - 1, by omega⟩
    rw [adaptiveLoop] at h ⊢
    split_ifs at h ⊢ with ht
    · cases hi : adaptiveIter cfg tEval T s with
      | error e => rw [hi] at h; cases h
      | ok s' =>
        rw [hi] at h
        exact ih n (by omega) s' h
    · exact h

/-- **C21**: a finished result does not depend on the bound on the number of iterations. -/
theorem C21_fuel_irrelevant (hs : FsalSolver solver args) (f : ℝ → (ι → ℝ) → (ι → ℝ)) (x : ι → ℝ)
    (t0 t1 : ℝ) (rest : List ℝ) (atol rtol : ℝ) (ui rae : Bool) (saveAt : List ℝ)
    (sel : Finset ι) (fuel fuel' : ℕ) (hle : fuel ≤ fuel') (r : List ℝ × List (ι → ℝ))
    (h : odeint fuel (pureField f) x (t0 :: t1 :: rest) solver atol rtol ui rae saveAt args sel
      = .ok (some r)) :
    odeint fuel' (pureField f) x (t0 :: t1 :: rest) solver atol rtol ui rae saveAt args sel
      = .ok (some r) := by
  have key : ∀ (cfg : AdaptiveCfg (Except PyErr) ℝ (ι → ℝ)) k1 dt ts,
      adaptiveOdeint cfg fuel k1 x dt ts = .ok (some r) →
      adaptiveOdeint cfg fuel' k1 x dt ts = .ok (some r) := by
    intro cfg k1 dt ts h
    simp only [adaptiveOdeint] at h ⊢
    cases h0 : (getItem ts 0 : Except PyErr ℝ) with
    | error e => rw [h0] at h; cases h
    | ok t =>
      cases h1 : (getItem ts (ts.length - 1) : Except PyErr ℝ) with
      | error e => rw [h0, h1] at h; cases h
      | ok T =>
        rw [h0, h1] at h
        simp only [bind, Except.bind] at h ⊢
        cases h2 : adaptiveLoop cfg (ts.drop 1) T fuel (adaptiveInit k1 x dt t) with
        | error e => rw [h2] at h; cases h
        | ok o =>
          rw [h2] at h
          cases o with
          | none => cases h
          | some s =>
            rw [adaptiveLoop_mono cfg _ _ _ _ hle _ _ h2]
            exact h
  by_cases hdir : t1 < t0
  · obtain ⟨dt, _, e⟩ := odeint_backward fuel f x rest solver hs.adaptive atol rtol ui rae saveAt
      args sel hdir
    obtain ⟨dt', _, e'⟩ := odeint_backward fuel' f x rest solver hs.adaptive atol rtol ui rae saveAt
      args sel hdir
    obtain ⟨d, hd, hi⟩ := initStep_pos f (-f (-(-t0)) x) x (-t0) solver.order atol rtol
    have e1 : ∀ n, odeint n (pureField f) x (t0 :: t1 :: rest) solver atol rtol ui rae saveAt args sel
      = adaptiveOdeint (odeintCfg (pureField (fun t x => -f (-t) x)) solver args atol rtol sel
        (odeintInterp solver ui) rae)
        n (-f (-(-t0)) x) x d ((t0 :: t1 :: rest).map (fun t => -t)) := by
      intro n
      have hk : reverseField (pureField (m := Except PyErr) f) (-t0) x = .ok (-f (-(-t0)) x) := rfl
      simp only [odeint, odeintDirection, getItem, List.getElem?_cons_succ, List.map_cons,
        List.getElem?_cons_zero, pure_bind, if_pos hdir, hs.adaptive, if_true, hk]
      simp only [bind, Except.bind, hi]
      rfl
    rw [e1] at h ⊢
    exact key _ _ _ _ h
  · obtain ⟨dt, _, hi, e⟩ := odeint_forward fuel f x rest solver hs.adaptive atol rtol ui rae saveAt
      args sel (not_lt.1 hdir)
    obtain ⟨dt', _, hi', e'⟩ := odeint_forward fuel' f x rest solver hs.adaptive atol rtol ui rae saveAt
      args sel (not_lt.1 hdir)
    rw [hi] at hi'
    cases hi'
    rw [e'] 
    rw [e] at h
    exact key _ _ _ _ h

/-- The common part of C22 and C23 without interpolator. -/
theorem adaptive_points (hs : FsalSolver solver args) (f : ℝ → (ι → ℝ) → (ι → ℝ)) (x : ι → ℝ)
    {t0 t1 dt : ℝ} {rest : List ℝ} (hinc : Increasing (t0 :: t1 :: rest)) (hdt : 0 < dt)
    (atol rtol : ℝ) (rae : Bool) (sel : Finset ι) (fuel : ℕ) (ts : List ℝ) (xs : List (ι → ℝ))
    (h : adaptiveOdeint (odeintCfg (pureField f) solver args atol rtol sel none rae) fuel (f t0 x) x
        dt (t0 :: t1 :: rest) = .ok (some (ts, xs))) :
    (ts.zip xs).IsChain (Reached solver args f sel atol rtol) ∧
    (rae = true → (ts.zip xs).IsChain (AcceptedStep solver args f sel atol rtol)) := by
  obtain ⟨out, ho1, ho2, ho3, had⟩ := hs.out f atol rtol sel none rae
  obtain ⟨r, hr, h'⟩ := adaptiveOdeint_run ho1 had hinc hdt (f t0 x) x
    (PointsInv (AcceptedStep solver args f sel atol rtol) f rae)
    ⟨rfl, rfl, by
      simp only [outs, adaptiveInit, List.zip_cons_cons, List.zip_nil_left, List.cons_append, List.nil_append]
      exact List.isChain_pair.2 Relation.ReflTransGen.refl,
      by simp [outs, adaptiveInit]⟩
    (fun T s s' d hT hP hI _ hit _ => pointsInv_step f ho2 ho3 (passed_nil rfl hit) hP hit) fuel
  rw [h] at hr
  cases hr
  obtain ⟨s, rfl, rfl, hP, -⟩ := h' ts xs rfl
  exact ⟨(List.isChain_append.1 hP.chain).1, fun hr => (hP.all_chain hr).1⟩

theorem odeintInterp_none {ui : Bool} (h : ui = false ∨ solver.isTsit5 = true) :
    odeintInterp solver ui = none := by
  unfold odeintInterp
  rcases h with h | h <;> simp [h]

/-- **C22.** Without interpolator (`interpolator=None`, or `tsit5`), the first output is the initial
point and every other output is reached from the previous one by consecutive solver steps, each of
error norm at most 1, each started afresh where the previous one ended. -/
theorem C22_accepted (hs : FsalSolver solver args) (f : ℝ → (ι → ℝ) → (ι → ℝ)) (x : ι → ℝ)
    (t0 t1 : ℝ) (rest : List ℝ) (hinc : Increasing (t0 :: t1 :: rest)) (atol rtol : ℝ)
    (ui rae : Bool) (hi : ui = false ∨ solver.isTsit5 = true) (saveAt : List ℝ) (sel : Finset ι)
    (fuel : ℕ) (ts : List ℝ) (xs : List (ι → ℝ))
    (h : odeint fuel (pureField f) x (t0 :: t1 :: rest) solver atol rtol ui rae saveAt args sel
      = .ok (some (ts, xs))) :
    ts[0]? = some t0 ∧ xs[0]? = some x ∧ ts.length = xs.length ∧
    ∀ (i : ℕ) t y t' y', ts[i]? = some t → xs[i]? = some y → ts[i + 1]? = some t' →
      xs[i + 1]? = some y' → Reached solver args f sel atol rtol (t, y) (t', y') := by
  obtain ⟨dt, hdt, -, e⟩ := odeint_forward fuel f x rest solver hs.adaptive atol rtol ui rae saveAt
    args sel (List.pairwise_cons.1 hinc |>.1 t1 (by simp)).le
  rw [e, odeintInterp_none hi] at h
  obtain ⟨r, hr, h'⟩ := adaptive_times hs f (f t0 x) x hinc hdt atol rtol none rae sel fuel
  have hh := hr ▸ h
  cases hh
  obtain ⟨h1, h2, _, _, h5, h6, h7⟩ := h' ts xs rfl
  refine ⟨h7, h6, h5.symm, ?_⟩
  · intro i t y t' y' ht hy ht' hy'
    have hc := (adaptive_points hs f x hinc hdt atol rtol rae sel fuel ts xs h).1
    rw [List.isChain_iff_getElem] at hc
    obtain ⟨a1, a2⟩ := List.getElem?_eq_some_iff.1 ht
    obtain ⟨b1, b2⟩ := List.getElem?_eq_some_iff.1 hy
    obtain ⟨c1, c2⟩ := List.getElem?_eq_some_iff.1 ht'
    obtain ⟨d1, d2⟩ := List.getElem?_eq_some_iff.1 hy'
    have := hc i (by simp; omega)
    simpa [a2, b2, c2, d2] using this

/-- **C22**, integration backwards in time: the outputs are accepted steps of the mirrored field
`-f(-t, x)` at the negated times. -/
theorem C22_accepted_backward (hs : FsalSolver solver args) (f : ℝ → (ι → ℝ) → (ι → ℝ)) (x : ι → ℝ)
    (t0 t1 : ℝ) (rest : List ℝ) (hdec : (t0 :: t1 :: rest).Pairwise (· > ·)) (atol rtol : ℝ)
    (ui rae : Bool) (hi : ui = false ∨ solver.isTsit5 = true) (saveAt : List ℝ) (sel : Finset ι)
    (fuel : ℕ) (ts : List ℝ) (xs : List (ι → ℝ))
    (h : odeint fuel (pureField f) x (t0 :: t1 :: rest) solver atol rtol ui rae saveAt args sel
      = .ok (some (ts, xs))) :
    ts[0]? = some (-t0) ∧ xs[0]? = some x ∧ ts.length = xs.length ∧
    ∀ (i : ℕ) t y t' y', ts[i]? = some t → xs[i]? = some y → ts[i + 1]? = some t' →
      xs[i + 1]? = some y' →
      Reached solver args (fun t x => -f (-t) x) sel atol rtol (t, y) (t', y') := by
  obtain ⟨dt, hdt, e⟩ := odeint_backward fuel f x rest solver hs.adaptive atol rtol ui rae saveAt
    args sel (List.pairwise_cons.1 hdec |>.1 t1 (by simp))
  rw [e, odeintInterp_none hi] at h
  have hinc : Increasing (-t0 :: -t1 :: rest.map (fun t => -t)) := increasing_neg hdec
  obtain ⟨r, hr, h'⟩ := adaptive_times hs (fun t x => -f (-t) x) (-f (-(-t0)) x) x hinc hdt atol rtol
    none rae sel fuel
  have hh := hr ▸ h
  cases hh
  obtain ⟨h1, h2, _, _, h5, h6, h7⟩ := h' ts xs rfl
  refine ⟨h7, h6, h5.symm, ?_⟩
  intro i t y t' y' ht hy ht' hy'
  have hc := (adaptive_points hs (fun t x => -f (-t) x) x hinc hdt atol rtol rae sel fuel ts xs hr).1
  rw [List.isChain_iff_getElem] at hc
  obtain ⟨a1, a2⟩ := List.getElem?_eq_some_iff.1 ht
  obtain ⟨b1, b2⟩ := List.getElem?_eq_some_iff.1 hy
  obtain ⟨c1, c2⟩ := List.getElem?_eq_some_iff.1 ht'
  obtain ⟨d1, d2⟩ := List.getElem?_eq_some_iff.1 hy'
  have := hc i (by simp; omega)
  simpa [a2, b2, c2, d2] using this

/-- **C23.** With `return_all_eval=True`, whatever the interpolator: the returned times increase
strictly from `t_span[0]` to `t_span[-1]` and contain `t_span`, with one state per time. There is a
sequence of accepted steps from `(t_span[0], x)` to the last output, all of whose end points are
returned; every other output is at a requested time. -/
theorem C23_all_eval (hs : FsalSolver solver args) (f : ℝ → (ι → ℝ) → (ι → ℝ)) (x : ι → ℝ)
    (t0 t1 : ℝ) (rest : List ℝ) (hinc : Increasing (t0 :: t1 :: rest)) (atol rtol : ℝ)
    (ui : Bool) (saveAt : List ℝ) (sel : Finset ι) (fuel : ℕ) :
    ∃ r, odeint fuel (pureField f) x (t0 :: t1 :: rest) solver atol rtol ui true saveAt args sel
      = .ok r ∧
    ∀ ts xs, r = some (ts, xs) →
      Increasing ts ∧ ts.head? = some t0 ∧ ts.getLast? = (t0 :: t1 :: rest).getLast? ∧
      (∀ t ∈ t0 :: t1 :: rest, t ∈ ts) ∧ xs.length = ts.length ∧ xs[0]? = some x ∧
      ∃ nodes : List (Point ι), nodes.Sublist (ts.zip xs) ∧
        nodes.IsChain (AcceptedStep solver args f sel atol rtol) ∧
        nodes.head? = some (t0, x) ∧ nodes.getLast? = (ts.zip xs).getLast? ∧
        ∀ p ∈ ts.zip xs, p ∈ nodes ∨ p.1 ∈ t1 :: rest := by
  obtain ⟨dt, hdt, -, e⟩ := odeint_forward fuel f x rest solver hs.adaptive atol rtol ui true saveAt
    args sel (List.pairwise_cons.1 hinc |>.1 t1 (by simp)).le
  rw [e]
  obtain ⟨r, hr, h'⟩ := adaptive_times hs f (f t0 x) x hinc hdt atol rtol (odeintInterp solver ui)
    true sel fuel
  refine ⟨r, hr, ?_⟩
  intro ts xs hts
  obtain ⟨h1, h2, _, h4, h5, h6, h7⟩ := h' ts xs hts
  refine ⟨h1, by rw [List.head?_eq_getElem?, h7], h4, fun t ht => h2.subset ht, h5, h6, ?_⟩
  obtain ⟨out, ho1, ho2, ho3, had⟩ := hs.out f atol rtol sel (odeintInterp solver ui) true
  obtain ⟨r', hr', h''⟩ := adaptiveOdeint_run ho1 had hinc hdt (f t0 x) x
    (fun s => (t0 ∉ t1 :: rest) ∧ ∃ nodes, NodesInv (AcceptedStep solver args f sel atol rtol)
      (Interpolated solver args f (odeintInterp solver ui)) f true (t1 :: rest) (t0, x) s nodes)
    (by
      have hn : t0 ∉ t1 :: rest := fun hm =>
        lt_irrefl _ ((List.pairwise_cons.1 hinc).1 t0 hm)
      exact ⟨hn, [(t0, x)], ⟨rfl, rfl, by simp, rfl, rfl, fun _ => List.Sublist.refl _,
        fun p hp => Or.inl hp, fun _ => rfl⟩⟩)
    (fun T s s' d hT hP hI _ hit _ => ⟨hP.1, by
      obtain ⟨nodes, hn⟩ := hP.2
      exact nodesInv_step f ho2 ho3 hI (List.pairwise_cons.1 hinc).2 hn hit⟩) fuel
  rw [hr] at hr'
  cases hr'
  obtain ⟨s, rfl, rfl, ⟨_, nodes, hn⟩, hl, _⟩ := h'' ts xs hts
  exact ⟨nodes, hn.all_sub rfl, hn.chain, hn.head,
    by rw [hn.last]; exact (hn.ends (List.mem_of_getLast? hl)).symm,
    fun p hp => (hn.rest p hp).imp id And.left⟩

/-- **C23**, without interpolator: consecutive outputs are linked by exactly one accepted step, so
nothing but the accepted steps is returned and none is left out. -/
theorem C23_all_eval_consecutive (hs : FsalSolver solver args) (f : ℝ → (ι → ℝ) → (ι → ℝ))
    (x : ι → ℝ) (t0 t1 : ℝ) (rest : List ℝ) (hinc : Increasing (t0 :: t1 :: rest)) (atol rtol : ℝ)
    (ui : Bool) (hi : ui = false ∨ solver.isTsit5 = true) (saveAt : List ℝ) (sel : Finset ι)
    (fuel : ℕ) (ts : List ℝ) (xs : List (ι → ℝ))
    (h : odeint fuel (pureField f) x (t0 :: t1 :: rest) solver atol rtol ui true saveAt args sel
      = .ok (some (ts, xs))) :
    (ts.zip xs).IsChain (AcceptedStep solver args f sel atol rtol) := by
  obtain ⟨dt, hdt, -, e⟩ := odeint_forward fuel f x rest solver hs.adaptive atol rtol ui true saveAt
    args sel (List.pairwise_cons.1 hinc |>.1 t1 (by simp)).le
  rw [e, odeintInterp_none hi] at h
  exact (adaptive_points hs f x hinc hdt atol rtol true sel fuel ts xs h).2 rfl

open Classical in
/-- A solver that raises `RuntimeError` when its step is called at a time and with a step size outside
`allowed`. -/
noncomputable def guardedSolver (allowed : ℝ → ℝ → Prop)
    (solver : Solver (Except PyErr) ℝ (ι → ℝ) A) : Solver (Except PyErr) ℝ (ι → ℝ) A :=
  { solver with
    step := fun f x t dt k1 a =>
      if allowed t dt then solver.step f x t dt k1 a else .error .runtimeError }

/-- **C24.** Every step attempted by adaptive `odeint`, accepted or not, has positive size, starts at
or after `t_span[0]`, does not reach past `t_span[-1]`, and (without interpolator) does not jump over
any requested time: the solver that raises on any other call gives the same result, for every number
of iterations. -/
theorem C24_attempts (hs : FsalSolver solver args) (f : ℝ → (ι → ℝ) → (ι → ℝ)) (x : ι → ℝ)
    (t0 t1 T : ℝ) (rest : List ℝ) (hinc : Increasing (t0 :: t1 :: rest))
    (hT : (t0 :: t1 :: rest).getLast? = some T) (atol rtol : ℝ)
    (ui rae : Bool) (saveAt : List ℝ) (sel : Finset ι) (fuel : ℕ) :
    odeint fuel (pureField f) x (t0 :: t1 :: rest)
      (guardedSolver (fun t dt => 0 < dt ∧ t0 ≤ t ∧ t + dt ≤ T ∧
        (ui = false ∨ solver.isTsit5 = true → ∀ te ∈ t0 :: t1 :: rest, te ≤ t ∨ t + dt ≤ te)) solver)
      atol rtol ui rae saveAt args sel =
    odeint fuel (pureField f) x (t0 :: t1 :: rest) solver atol rtol ui rae saveAt args sel := by
  set g := guardedSolver (fun t dt => 0 < dt ∧ t0 ≤ t ∧ t + dt ≤ T ∧
        (ui = false ∨ solver.isTsit5 = true → ∀ te ∈ t0 :: t1 :: rest, te ≤ t ∨ t + dt ≤ te)) solver
    with hg
  have hle := (List.pairwise_cons.1 hinc |>.1 t1 (by simp)).le
  obtain ⟨dt, hdt, hi, e⟩ := odeint_forward fuel f x rest solver hs.adaptive atol rtol ui rae saveAt
    args sel hle
  obtain ⟨dt', _, hi', e'⟩ := odeint_forward fuel f x rest g hs.adaptive atol rtol ui rae saveAt
    args sel hle
  have : dt' = dt := by
    have h : g.order = solver.order := rfl
    rw [h, hi] at hi'
    cases hi'; rfl
  subst this
  rw [e, e']
  obtain ⟨out, ho1, ho2, ho3, had⟩ := hs.out f atol rtol sel (odeintInterp solver ui) rae
  refine adaptiveOdeint_congr_step ho1 had hinc hdt (f t0 x) x
    (by rwa [getLast?_cons_cons] at hT)
    (fun x t dt k1 => g.step (pureField f) x t dt (some k1) args) ?_ fuel
  intro x t dt k1 h1 h2 h3 h4
  simp only [hg, guardedSolver]
  rw [if_pos]
  · rfl
  · exact ⟨h1, h2, h3, fun hi => h4 (odeintInterp_none hi)⟩

open Classical in
/-- A vector field that raises `RuntimeError` outside the time window `[a, b]`. -/
noncomputable def windowField (a b : ℝ) (f : ℝ → (ι → ℝ) → (ι → ℝ)) :
    ℝ → (ι → ℝ) → Except PyErr (ι → ℝ) :=
  fun t x => if a ≤ t ∧ t ≤ b then .ok (f t x) else .error .runtimeError

theorem rk7_window (tab : Tableau ℝ) (hc : ∀ i < 6, 0 ≤ nth tab.c i ∧ nth tab.c i ≤ 1)
    (f : ℝ → (ι → ℝ) → (ι → ℝ)) (x : ι → ℝ) (t dt : ℝ) (hdt : 0 ≤ dt) (k1 : Option (ι → ℝ)) (a : A) :
    rk7Step tab (windowField t (t + dt) f) x t dt k1 a = rk7Step tab (pureField f) x t dt k1 a := by
  have hw : ∀ c, 0 ≤ c ∧ c ≤ 1 → ∀ y,
      windowField t (t + dt) f (t + c * dt) y = pureField f (t + c * dt) y := by
    intro c hc y
    unfold windowField
    rw [if_pos]
    · rfl
    · exact ⟨by nlinarith [mul_nonneg hc.1 hdt], by nlinarith [hc.2]⟩
  have hf : firstStage (windowField t (t + dt) f) x t k1 = firstStage (pureField f) x t k1 := by
    cases k1 with
    | some k => rfl
    | none =>
      have := hw 0 ⟨le_refl _, zero_le_one⟩ x
      simpa [firstStage] using this
  simp only [rk7Step, hf, hw _ (hc 0 (by norm_num)), hw _ (hc 1 (by norm_num)),
    hw _ (hc 2 (by norm_num)), hw _ (hc 3 (by norm_num)), hw _ (hc 4 (by norm_num)),
    hw _ (hc 5 (by norm_num))]

/-- **C24.** A step of `dopri5` from `t` to `t + dt` evaluates the vector field only at times in
`[t, t + dt]`: a field that raises outside this window gives the same step. -/
theorem C24_window_dopri5 (f : ℝ → (ι → ℝ) → (ι → ℝ)) (x : ι → ℝ) (t dt : ℝ) (hdt : 0 ≤ dt)
    (k1 : Option (ι → ℝ)) (a : A) :
    dopri5Step (windowField t (t + dt) f) x t dt k1 a = dopri5Step (pureField f) x t dt k1 a := by
  refine rk7_window _ ?_ f x t dt hdt k1 a
  intro i hi
  interval_cases i <;> norm_num [constructDopri5, nth]

/-- **C24.** The same for `tsit5`. -/
theorem C24_window_tsit5 (f : ℝ → (ι → ℝ) → (ι → ℝ)) (x : ι → ℝ) (t dt : ℝ) (hdt : 0 ≤ dt)
    (k1 : Option (ι → ℝ)) (a : A) :
    tsit5Step (windowField t (t + dt) f) x t dt k1 a = tsit5Step (pureField f) x t dt k1 a := by
  refine rk7_window _ ?_ f x t dt hdt k1 a
  intro i hi
  interval_cases i <;> norm_num [constructTsit5, nth]

/-! ### Step size control -/

/-- **C25.** `adapt_step`: the new step size is `dt` times a factor between `min_factor` and
`max_factor` (`0.2` and `10` in the templates); it does not shrink after an error ratio below 1; after
an error ratio of at least 1 it shrinks at least to `safety` times `dt` (unless `min_factor` is
larger). -/
theorem C25_controller (dt er safety minF maxF : ℝ) (order : ℕ) (hdt : 0 < dt) (_her : 0 ≤ er)
    (hs : 0 < safety) (h1 : minF ≤ 1) (h2 : 1 ≤ maxF) (_hord : 1 ≤ order) :
    dt * minF ≤ adaptStep dt er safety minF maxF order ∧
    adaptStep dt er safety minF maxF order ≤ dt * maxF ∧
    (er < 1 → dt ≤ adaptStep dt er safety minF maxF order) ∧
    (1 ≤ er → adaptStep dt er safety minF maxF order ≤ dt * max safety minF) := by
  unfold adaptStep
  by_cases h0 : er = 0
  · rw [if_pos h0]
    exact ⟨by nlinarith, le_refl _, fun _ => by nlinarith, fun h => absurd h (by rw [h0]; norm_num)⟩
  · rw [if_neg h0]
    simp only
    by_cases hlt : er < 1
    · rw [if_pos hlt]
      have hf1 : 1 ≤ min maxF (max (safety / er ^ (order : ℝ)⁻¹) 1) := le_min h2 (le_max_right _ _)
      have hf2 : min maxF (max (safety / er ^ (order : ℝ)⁻¹) 1) ≤ maxF := min_le_left _ _
      exact ⟨by nlinarith, by nlinarith, fun _ => by nlinarith, fun h => absurd hlt (not_lt.2 h)⟩
    · rw [if_neg hlt]
      rw [not_lt] at hlt
      have hf1 : minF ≤ min maxF (max (safety / er ^ (order : ℝ)⁻¹) minF) :=
        le_min (h1.trans h2) (le_max_right _ _)
      have hf2 : min maxF (max (safety / er ^ (order : ℝ)⁻¹) minF) ≤ maxF := min_le_left _ _
      have hp : 1 ≤ er ^ (order : ℝ)⁻¹ := Real.one_le_rpow hlt (by positivity)
      have hf3 : min maxF (max (safety / er ^ (order : ℝ)⁻¹) minF) ≤ max safety minF := by
        refine (min_le_right _ _).trans (max_le_max ?_ (le_refl _))
        exact div_le_self hs.le hp
      exact ⟨by nlinarith, by nlinarith, fun h => absurd h (not_lt.2 hlt), fun _ => by nlinarith⟩

/-- **C25** with the constants of the built-in solvers: factor in `[0.2, 10]`, no shrinking below an
error ratio of 1, at least 10% shrinking from an error ratio of 1 on. -/
theorem C25_builtin (dt er : ℝ) (order : ℕ) (hdt : 0 < dt) (her : 0 ≤ er) (hord : 1 ≤ order) :
    let dt' := adaptStep dt er (dopri5Solver (Except PyErr) ℝ (ι → ℝ) A).safety
      (dopri5Solver (Except PyErr) ℝ (ι → ℝ) A).minFactor
      (dopri5Solver (Except PyErr) ℝ (ι → ℝ) A).maxFactor order
    (1 / 5) * dt ≤ dt' ∧ dt' ≤ 10 * dt ∧ (er < 1 → dt ≤ dt') ∧ (1 ≤ er → dt' ≤ (9 / 10) * dt) := by
  have h := C25_controller dt er (9 / 10) (1 / 5) 10 order hdt her (by norm_num) (by norm_num)
    (by norm_num) hord
  have e : max (9 / 10 : ℝ) (1 / 5) = 9 / 10 := by norm_num
  rw [e] at h
  obtain ⟨a, b, c, d⟩ := h
  exact ⟨by rw [mul_comm]; exact a, by rw [mul_comm]; exact b, c, fun h => by
    rw [mul_comm]; exact d h⟩

/-- **C25.** The controller is monotone: a larger error never gives a larger next step. -/
theorem C25_monotone (dt er er' safety minF maxF : ℝ) (order : ℕ) (hdt : 0 < dt) (her : 0 ≤ er)
    (hle : er ≤ er') (hs : 0 < safety) (h1 : minF ≤ 1) (h2 : 1 ≤ maxF) (hord : 1 ≤ order) :
    adaptStep dt er' safety minF maxF order ≤ adaptStep dt er safety minF maxF order := by
  by_cases h0 : er = 0
  · have := (C25_controller dt er' safety minF maxF order hdt (her.trans hle) hs h1 h2 hord).2.1
    refine this.trans ?_
    unfold adaptStep
    rw [if_pos h0]
  · have hp : 0 < er := lt_of_le_of_ne her (Ne.symm h0)
    have h0' : er' ≠ 0 := (hp.trans_le hle).ne'
    unfold adaptStep
    rw [if_neg h0, if_neg h0']
    simp only
    apply mul_le_mul_of_nonneg_left _ hdt.le
    apply min_le_min (le_refl _)
    apply max_le_max
    · apply div_le_div_of_nonneg_left hs.le (Real.rpow_pos_of_pos hp _)
      exact Real.rpow_le_rpow her hle (by positivity)
    · by_cases h : er' < 1
      · rw [if_pos h, if_pos (hle.trans_lt h)]
      · rw [if_neg h]
        split_ifs
        · exact h1
        · exact le_refl _

/-- **C25 (what the controller aims at).** If the error of a step of size `h` is `er * (h / dt)^order`, the
predicted error of the next step is at most `safety^order` unless the factor was raised to its lower limit
(`min_factor`, or `1` after an error below 1), and at least `safety^order` unless it was cut to
`max_factor`. These two statements determine the next step. -/
theorem C25_target (dt er safety minF maxF : ℝ) (order : ℕ) (hdt : 0 < dt) (her : 0 < er)
    (hs : 0 < safety) (h0 : 0 ≤ minF) (h1 : minF ≤ 1) (h2 : 1 ≤ maxF) (hord : 1 ≤ order) :
    let dt' := adaptStep dt er safety minF maxF order
    (er * (dt' / dt) ^ order ≤ safety ^ order ∨ dt' = dt * (if er < 1 then 1 else minF)) ∧
    (safety ^ order ≤ er * (dt' / dt) ^ order ∨ dt' = dt * maxF) := by
  intro dt'
  have hp : 0 < er ^ (order : ℝ)⁻¹ := Real.rpow_pos_of_pos her _
  have hpow : (er ^ (order : ℝ)⁻¹) ^ order = er := Real.rpow_inv_natCast_pow her.le (by omega)
  set q := safety / er ^ (order : ℝ)⁻¹ with hq
  have hq0 : 0 < q := div_pos hs hp
  have hqe : er * q ^ order = safety ^ order := by
    rw [hq, div_pow, hpow]; field_simp
  set lo : ℝ := if er < 1 then 1 else minF with hlo
  have hlo0 : 0 ≤ lo := by rw [hlo]; split_ifs <;> linarith
  have hlo1 : lo ≤ maxF := by rw [hlo]; split_ifs <;> linarith
  have e : dt' = dt * min maxF (max q lo) := by
    simp only [dt', adaptStep, if_neg her.ne', hq, hlo]
  have e' : dt' / dt = min maxF (max q lo) := by rw [e]; field_simp
  rw [e', e]
  constructor
  · rcases le_total q lo with hl | hl
    · right; rw [max_eq_right hl, min_eq_right hlo1]
    · left
      rw [max_eq_left hl, ← hqe]
      exact mul_le_mul_of_nonneg_left (pow_le_pow_left₀ (le_min (by linarith) hq0.le)
        (min_le_right _ _) _) her.le
  · rcases le_total maxF (max q lo) with hl | hl
    · right; rw [min_eq_left hl]
    · left
      rw [min_eq_right hl, ← hqe]
      exact mul_le_mul_of_nonneg_left (pow_le_pow_left₀ hq0.le (le_max_left _ _) _) her.le

/-- **C25.** Without error the step grows by `max_factor`. -/
theorem C25_zero (dt safety minF maxF : ℝ) (order : ℕ) :
    adaptStep dt 0 safety minF maxF order = dt * maxF := by
  simp [adaptStep]

/-- Non-vacuity of C25: a rejected step of size 1 with error ratio 32 and order 5 is retried with
`0.9/2` of its size; an accepted one with zero error grows tenfold. -/
example : adaptStep 1 32 (9 / 10) (1 / 5) 10 5 = 9 / 20 ∧ adaptStep 1 0 (9 / 10) (1 / 5) 10 5 = 10 := by
  constructor
  · have : (32 : ℝ) ^ ((5 : ℕ) : ℝ)⁻¹ = 2 := by
      rw [show (32 : ℝ) = 2 ^ (5 : ℕ) by norm_num]
      exact Real.pow_rpow_inv_natCast (by norm_num) (by norm_num)
    simp only [adaptStep, this]
    norm_num
  · norm_num [adaptStep]

/-- The trial step of the documented heuristic: `10^-6` when the scaled norms of the state or of the
derivative are below `10^-5`, else one hundredth of their quotient. -/
noncomputable def trialStep (f0 x0 : ι → ℝ) (atol rtol : ℝ) : ℝ :=
  let d0 := errorNorm Finset.univ atol rtol x0 x0 x0
  let d1 := errorNorm Finset.univ atol rtol x0 x0 f0
  if d0 < 1 / 10 ^ 5 ∨ d1 < 1 / 10 ^ 5 then 1 / 10 ^ 6 else 1 / 100 * (d0 / d1)

/-- **C26.** `init_step` never raises and returns a strictly positive step, at most 100 times the
trial step, for every field, state, time, order and tolerances (`atol > 0`, `rtol ≥ 0`: no division by
zero in the scaled norms). -/
theorem C26_init_step (f : ℝ → (ι → ℝ) → (ι → ℝ)) (f0 x0 : ι → ℝ) (t0 : ℝ) (order : ℕ)
    (atol rtol : ℝ) (_ha : 0 < atol) (_hr : 0 ≤ rtol) :
    ∃ dt, initStep (m := Except PyErr) (pureField f) f0 x0 t0 order atol rtol = .ok dt ∧
      0 < dt ∧ dt ≤ 100 * trialStep f0 x0 atol rtol := by
  refine ⟨_, rfl, ?_, ?_⟩
  · exact lt_min (mul_pos (by norm_num) (initTrial_pos _ _)) (initSecond_pos _ _ _ _)
  · refine (min_le_left _ _).trans (le_of_eq ?_)
    have e : ∀ y : ι → ℝ, hairerNorm (fun i => y i / (atol + |x0 i| * rtol)) =
        errorNorm Finset.univ atol rtol x0 x0 y := by
      intro y
      simp only [hairerNorm, hairerNormOn, errorNorm, sq_abs, max_self, mul_comm rtol]
    simp only [e, trialStep, initTrial, mul_div_assoc]

/-- **C26 (what the initial step aims at).** Let `h0` be the trial step, and `D` the larger of the scaled
norms of the derivative and of the difference quotient of the derivatives along one explicit Euler step of
size `h0`. If `D` exceeds `10^-15` the initial step is the largest `dt ≤ 100 h0` with
`D dt^(order + 1) ≤ 1/100`; otherwise it is `max(10^-6, h0 / 1000)`, cut to `100 h0`. -/
theorem C26_target (f : ℝ → (ι → ℝ) → (ι → ℝ)) (f0 x0 : ι → ℝ) (t0 : ℝ) (order : ℕ)
    (atol rtol : ℝ) (_ha : 0 < atol) (_hr : 0 ≤ rtol) :
    let N := fun v => errorNorm Finset.univ atol rtol x0 x0 v
    let h0 := trialStep f0 x0 atol rtol
    let D := max (N f0) (N (h0⁻¹ • (f (t0 + h0) (x0 + h0 • f0) - f0)))
    ∃ dt, initStep (m := Except PyErr) (pureField f) f0 x0 t0 order atol rtol = .ok dt ∧
      (1 / 10 ^ 15 < D → IsGreatest {h | 0 ≤ h ∧ h ≤ 100 * h0 ∧ D * h ^ (order + 1) ≤ 1 / 100} dt) ∧
      (D ≤ 1 / 10 ^ 15 → dt = min (100 * h0) (max (1 / 10 ^ 6) (h0 / 10 ^ 3))) := by
  intro N h0 D
  have e : ∀ y : ι → ℝ, hairerNorm (fun i => y i / (atol + |x0 i| * rtol)) = N y := by
    intro y
    simp only [N, hairerNorm, hairerNormOn, errorNorm, sq_abs, max_self, mul_comm rtol]
  have ht : initTrial (N x0) (N f0) = h0 := by
    simp only [h0, trialStep, initTrial, mul_div_assoc, N]
  have hpos : 0 < h0 := by rw [← ht]; exact initTrial_pos _ _
  have hsm : ∀ v : ι → ℝ, N (h0⁻¹ • v) = N v / h0 := by
    intro v
    have : ∀ i, (h0⁻¹ • v) i / (atol + rtol * max |x0 i| |x0 i|) =
        h0⁻¹ * (v i / (atol + rtol * max |x0 i| |x0 i|)) := fun i => by
      simp only [Pi.smul_apply, smul_eq_mul]; ring
    simp only [N, errorNorm, this, mul_pow, ← Finset.mul_sum]
    rw [mul_div_assoc, Real.sqrt_mul (by positivity), Real.sqrt_sq (by positivity)]
    field_simp
  have hrun : initStep (m := Except PyErr) (pureField f) f0 x0 t0 order atol rtol =
      .ok (min (100 * h0) (initSecond (N f0)
        (N (h0⁻¹ • (f (t0 + h0) (x0 + h0 • f0) - f0))) h0 order)) := by
    rw [hsm, ← e (f (t0 + h0) (x0 + h0 • f0) - f0), ← ht, ← e x0, ← e f0]
    rfl
  refine ⟨_, hrun, ?_, ?_⟩
  · intro hD
    have hne : ¬ (N f0 ≤ 1 / 10 ^ 15 ∧ N (h0⁻¹ • (f (t0 + h0) (x0 + h0 • f0) - f0)) ≤ 1 / 10 ^ 15) :=
      fun h => absurd (max_le h.1 h.2) (not_le.2 hD)
    have hDp : 0 < D := lt_trans (by norm_num) hD
    have hs : initSecond (N f0) (N (h0⁻¹ • (f (t0 + h0) (x0 + h0 • f0) - f0))) h0 order =
        (1 / 100 / D) ^ ((order + 1 : ℕ) : ℝ)⁻¹ := by
      rw [initSecond, if_neg hne, one_div ((order : ℝ) + 1)]
      push_cast
      rfl
    rw [hs]
    set r := (1 / 100 / D) ^ ((order + 1 : ℕ) : ℝ)⁻¹ with hrr
    have hr0 : 0 ≤ r := Real.rpow_nonneg (by positivity) _
    have hrp : D * r ^ (order + 1) = 1 / 100 := by
      rw [hrr, Real.rpow_inv_natCast_pow (by positivity) (by omega)]
      field_simp
    refine ⟨⟨le_min (by positivity) hr0, min_le_left _ _, ?_⟩, ?_⟩
    · rw [← hrp]
      exact mul_le_mul_of_nonneg_left (pow_le_pow_left₀ (le_min (by positivity) hr0)
        (min_le_right _ _) _) hDp.le
    · rintro h ⟨hh, hle, hb⟩
      refine le_min hle ?_
      rw [← hrp] at hb
      exact le_of_pow_le_pow_left₀ (by omega) hr0 (le_of_mul_le_mul_left hb hDp)
  · intro hD
    rw [initSecond, if_pos ⟨(le_max_left _ _).trans hD, (le_max_right _ _).trans hD⟩]
    congr 2
    ring

/-- Non-vacuity of C26: for `x' = 1` from `x = 1` with `atol = 1`, `rtol = 0` and order 1 the trial step is
`1/100`, `D = 1`, and the initial step is `1/10`. -/
example : initStep (m := Except PyErr) (pureField fun _ _ => (fun _ : Fin 1 => (1 : ℝ))) (fun _ => 1)
    (fun _ => 1) 0 1 1 0 = .ok (1 / 10) := by
  have hh : (1 / 100 : ℝ) ^ ((1 : ℝ) / 2) = 1 / 10 := by
    rw [← Real.sqrt_eq_rpow, show (1 / 100 : ℝ) = (1 / 10) ^ 2 by norm_num, Real.sqrt_sq (by norm_num)]
  simp [initStep, pureField, hairerNorm, hairerNormOn, initTrial, initSecond, pure, Except.pure, bind,
    Except.bind]
  norm_num at hh ⊢

end Torchdyn
