import Verif.Proofs.Hybrid
import Mathlib.Tactic.NormNum
import Mathlib.Tactic.Linarith

/-!
Properties C33–C37 of `odeint_hybrid`.
-/

set_option linter.unusedSectionVars false
set_option linter.unusedSimpArgs false

namespace Torchdyn

open Spec

variable {ι A : Type} [Fintype ι] {solver : Solver (Except PyErr) ℝ (ι → ℝ) A} {args : A}

/-- The state from which integration starts: `x`, or its image under the first active callback when
`priority='jump'` and some callback is active. -/
def StartState (cbs : List (EventCallback ℝ (ι → ℝ))) (jumpFirst : Bool) (t0 : ℝ) (x x0 : ι → ℝ) :
    Prop :=
  (jumpFirst = false ∨ Quiet cbs (t0, x)) ∧ x0 = x ∨
  jumpFirst = true ∧ ∃ cb, FirstActive cbs (t0, x) cb ∧ x0 = cb.jumpMap t0 x

theorem initialJump_ok (cbs : List (EventCallback ℝ (ι → ℝ))) (jumpFirst : Bool) (t0 : ℝ) (x : ι → ℝ) :
    ∃ x0 j, (initialJump cbs jumpFirst t0 x : Except PyErr _) = .ok (x0, j) ∧
      StartState cbs jumpFirst t0 x x0 ∧ j ≤ 1 ∧
      ((jumpFirst = false ∨ Quiet cbs (t0, x)) → j = 0 ∧ x0 = x) ∧
      (jumpFirst = true → ¬ Quiet cbs (t0, x) → j = 1) := by
  cases jumpFirst with
  | false => exact ⟨x, 0, rfl, Or.inl ⟨Or.inl rfl, rfl⟩, by omega, fun _ => ⟨rfl, rfl⟩, by simp⟩
  | true =>
    by_cases hq : triggeredEvents (eventStates cbs t0 x) = 0
    · have hQ := (triggered_quiet cbs t0 x).1 hq
      refine ⟨x, 0, ?_, Or.inl ⟨Or.inr hQ, rfl⟩, by omega, fun _ => ⟨rfl, rfl⟩, fun _ h => absurd hQ h⟩
      simp only [initialJump, if_true]
      rw [if_neg (by omega)]
      rfl
    · have hQ : ¬ Quiet cbs (t0, x) := fun h => hq ((triggered_quiet cbs t0 x).2 h)
      cases hfa : (firstActive (eventStates cbs t0 x) : Except PyErr ℕ) with
      | error e =>
        exfalso
        apply hq
        rw [triggeredEvents_eq_zero]
        unfold firstActive at hfa
        split at hfa
        · cases hfa
        · rename_i hn
          rw [List.min?_eq_none_iff, List.filter_eq_nil_iff] at hn
          intro e he
          obtain ⟨i, hi, rfl⟩ := List.getElem_of_mem he
          have := hn i (List.mem_range.2 hi)
          rw [List.getD_eq_getElem?_getD, List.getElem?_eq_getElem hi] at this
          simpa using this
      | ok i =>
        have hact := firstActive_ok hfa
        have hlt : i < cbs.length := by
          have := (List.getElem?_eq_some_iff.1 hact.1).1
          simpa [eventStates] using this
        have hg : (getItem cbs i : Except PyErr _) = .ok cbs[i] := by
          unfold getItem
          rw [List.getElem?_eq_getElem hlt]
          rfl
        refine ⟨cbs[i].jumpMap t0 x, 1, ?_, Or.inr ⟨rfl, cbs[i], firstActive_spec hfa hg, rfl⟩, le_refl _,
          ?_, fun _ _ => rfl⟩
        · simp only [initialJump, if_true]
          rw [if_pos (by omega), hfa]
          simp only [bind, Except.bind, hg]
          rfl
        · rintro (h | h)
          · cases h
          · exact absurd h hQ

/-- Reduction of `odeint_hybrid` to its main loop. -/
theorem odeintHybrid_loop (f : ℝ → (ι → ℝ) → (ι → ℝ)) (x : ι → ℝ) (t0 T : ℝ)
    (tEval : List ℝ) (hT : (t0 :: tEval).getLast? = some T)
    (solver : Solver (Except PyErr) ℝ (ι → ℝ) A)
    (cbs : List (EventCallback ℝ (ι → ℝ))) (atol rtol eventTol : ℝ) (jumpFirst : Bool) (sel : Finset ι)
    (args : A) :
    ∃ x0 j dt, StartState cbs jumpFirst t0 x x0 ∧ j ≤ 1 ∧
      ((jumpFirst = false ∨ Quiet cbs (t0, x)) → j = 0 ∧ x0 = x) ∧
      (jumpFirst = true → ¬ Quiet cbs (t0, x) → j = 1) ∧ 0 < dt ∧
      initStep (m := Except PyErr) (pureField f) (f t0 x0) x0 t0 solver.order atol rtol = .ok dt ∧
      ∀ fuel jSpan, odeintHybrid fuel (pureField f) x (t0 :: tEval) jSpan solver cbs atol rtol eventTol
        jumpFirst sel args =
        (hybridLoop (hybridCfg f solver args atol rtol sel cbs eventTol) tEval T j jSpan fuel
          (hybridInit t0 x0 (f t0 x0) dt)).map (Option.map (fun s => (s.evalTimes, s.sol))) := by
  obtain ⟨x0, j, h1, h2, h3, h4, h5⟩ := initialJump_ok cbs jumpFirst t0 x
  obtain ⟨dt, hdt, hdt'⟩ := initStep_pos f (f t0 x0) x0 t0 solver.order atol rtol
  refine ⟨x0, j, dt, h2, h3, h4, h5, hdt, hdt', ?_⟩
  intro fuel jSpan
  rw [odeintHybrid_eq fuel f x t0 T tEval hT, h1]
  simp only [bind, Except.bind, hdt']
  cases hybridLoop (hybridCfg f solver args atol rtol sel cbs eventTol) tEval T j jSpan fuel
    (hybridInit t0 x0 (f t0 x0) dt) <;> rfl

/-- **C33.** Whatever the field, the callbacks, the tolerances and the history: a call of
`odeint_hybrid` that returns gives as many states as times; the outputs start at `t_span[0]` with the
initial state (or its jump), and form a trace in which each entry is either a step within the
tolerances or belongs to a pair recording a jump, before and after, at the same time, made by the
active callback of smallest index. -/
theorem C33_trace (hs : FsalSolver solver args) (f : ℝ → (ι → ℝ) → (ι → ℝ)) (x : ι → ℝ) (t0 : ℝ)
    (tEval : List ℝ) (jSpan : ℕ) (cbs : List (EventCallback ℝ (ι → ℝ))) (atol rtol eventTol : ℝ)
    (jumpFirst : Bool) (sel : Finset ι) (fuel : ℕ) (ts : List ℝ) (xs : List (ι → ℝ))
    (h : odeintHybrid fuel (pureField f) x (t0 :: tEval) jSpan solver cbs atol rtol eventTol jumpFirst
      sel args = .ok (some (ts, xs))) :
    xs.length = ts.length ∧ ∃ x0 l, StartState cbs jumpFirst t0 x x0 ∧ ts.zip xs = (t0, x0) :: l ∧
      HybridTrace solver args f sel atol rtol cbs (t0, x0) l := by
  obtain ⟨T, hT⟩ : ∃ T, (t0 :: tEval).getLast? = some T := ⟨_, List.getLast?_eq_some_getLast (by simp)⟩
  obtain ⟨x0, j, dt, h1, _, _, _, _, _, e⟩ := odeintHybrid_loop f x t0 T tEval hT solver cbs atol rtol
    eventTol jumpFirst sel args
  rw [e] at h
  cases hl : hybridLoop (hybridCfg f solver args atol rtol sel cbs eventTol) tEval T j jSpan fuel
    (hybridInit t0 x0 (f t0 x0) dt) with
  | error err => rw [hl] at h; cases h
  | ok r =>
    cases r with
    | none => rw [hl] at h; cases h
    | some s =>
      rw [hl] at h
      cases h
      obtain ⟨hP, -⟩ := hybridLoop_induct _ tEval T j jSpan
        (TraceInv solver args f sel atol rtol cbs (t0, x0))
        (fun s s' hs' _ hit => traceInv_step hs hs' hit) fuel _ s
        ⟨Or.inr rfl, rfl, [], rfl, .nil _, rfl⟩ hl
      obtain ⟨l, hl1, hl2, -⟩ := hP.trace
      exact ⟨hP.len, x0, l, h1, hl1, hl2⟩

/-- **C33.** The only exception that can arise is `ValueError` (when the last bisection step saw no
event). -/
theorem C33_errors (hs : FsalSolver solver args) (f : ℝ → (ι → ℝ) → (ι → ℝ)) (x : ι → ℝ) (t0 : ℝ)
    (tEval : List ℝ) (jSpan : ℕ) (cbs : List (EventCallback ℝ (ι → ℝ))) (atol rtol eventTol : ℝ)
    (jumpFirst : Bool) (sel : Finset ι) (fuel : ℕ) (err : PyErr)
    (h : odeintHybrid fuel (pureField f) x (t0 :: tEval) jSpan solver cbs atol rtol eventTol jumpFirst
      sel args = .error err) : err = .valueError := by
  obtain ⟨T, hT⟩ : ∃ T, (t0 :: tEval).getLast? = some T := ⟨_, List.getLast?_eq_some_getLast (by simp)⟩
  obtain ⟨x0, j, dt, _, _, _, _, _, _, e⟩ := odeintHybrid_loop f x t0 T tEval hT solver cbs atol rtol
    eventTol jumpFirst sel args
  rw [e] at h
  have key : ∀ fuel s, KOk f s.t s.x s.k1 →
      hybridLoop (hybridCfg f solver args atol rtol sel cbs eventTol) tEval T j jSpan fuel s = .error err →
      err = .valueError := by
    intro fuel
    induction fuel with
    | zero => intro s _ h; cases h
    | succ fuel ih =>
      intro s hk h
      rw [hybridLoop] at h
      split_ifs at h with hc
      · obtain ⟨k, x', e', st, h1, h2, hcase⟩ := hybridIter_cases (sel := sel) (atol := atol)
          (rtol := rtol) (eventTol := eventTol) (cbs := cbs) hs tEval T s hk
        rcases hcase with ⟨hq, hr⟩ | ⟨-, b, hb, -, ⟨-, hr⟩ | ⟨c, cb, hc1, hc2, -, hr⟩⟩
        · rw [hr] at h
          refine ih _ ?_ h
          simp only [hybridFlow]
          split_ifs
          · exact Or.inr (by rw [h2])
          · exact Or.inr (by rw [h2])
          · exact hk
          · exact hk
        · rw [hr] at h
          cases h
          rfl
        · rw [hr] at h
          exact ih _ (Or.inl rfl) h
      · cases h
  cases hl : hybridLoop (hybridCfg f solver args atol rtol sel cbs eventTol) tEval T j jSpan fuel
    (hybridInit t0 x0 (f t0 x0) dt) with
  | error err' => rw [hl] at h; cases h; exact key fuel _ (Or.inr rfl) hl
  | ok r => rw [hl] at h; cases h

/-! ### C34: the bound on the number of jumps -/

/-- **C34 (what holds instead).** The bound `j_span` is not enforced: beyond 1 its value is ignored
(it can only suppress the integration altogether, after an initial jump or when it is `0`). -/
theorem C34_jspan_ignored (f : ℝ → (ι → ℝ) → (ι → ℝ)) (x : ι → ℝ) (t0 : ℝ)
    (tEval : List ℝ) (j j' : ℕ) (cbs : List (EventCallback ℝ (ι → ℝ))) (atol rtol eventTol : ℝ)
    (jumpFirst : Bool) (sel : Finset ι) (fuel : ℕ)
    (hj : 2 ≤ j ∨ 1 ≤ j ∧ (jumpFirst = false ∨ Quiet cbs (t0, x)))
    (hj' : 2 ≤ j' ∨ 1 ≤ j' ∧ (jumpFirst = false ∨ Quiet cbs (t0, x))) :
    odeintHybrid fuel (pureField f) x (t0 :: tEval) j solver cbs atol rtol eventTol jumpFirst sel args =
    odeintHybrid fuel (pureField f) x (t0 :: tEval) j' solver cbs atol rtol eventTol jumpFirst sel
      args := by
  obtain ⟨T, hT⟩ : ∃ T, (t0 :: tEval).getLast? = some T := ⟨_, List.getLast?_eq_some_getLast (by simp)⟩
  obtain ⟨x0, jn, dt, _, h1, h2, _, _, _, e⟩ := odeintHybrid_loop f x t0 T tEval hT solver cbs atol rtol
    eventTol jumpFirst sel args
  rw [e, e]
  congr 1
  have hlt : ∀ j, (2 ≤ j ∨ 1 ≤ j ∧ (jumpFirst = false ∨ Quiet cbs (t0, x))) → jn < j := by
    rintro j (h | ⟨h, h'⟩)
    · omega
    · have := (h2 h').1; omega
  generalize hybridInit t0 x0 (f t0 x0) dt = s
  induction fuel generalizing s with
  | zero => rfl
  | succ fuel ih =>
    simp only [hybridLoop, hlt j hj, hlt j' hj', and_true]
    split_ifs
    · cases hybridIter (hybridCfg f solver args atol rtol sel cbs eventTol) tEval T s with
      | error e => rfl
      | ok s' => exact ih s'
    · rfl

/-! ### Step sizes and times -/

/-- Invariant on times and step sizes. -/
structure DInv (tEval : List ℝ) (t0 T : ℝ) (s : HState ℝ (ι → ℝ)) : Prop where
  ge : t0 ≤ s.t
  le : s.t ≤ T
  dt : 0 ≤ s.dt
  flag : s.ckptFlag = true → s.dt ≤ s.dtOld
  future : ∀ te ∈ tEval.drop s.ckpt, s.t ≤ te
  sorted : s.evalTimes.Pairwise (· ≤ ·)
  range : ∀ a ∈ s.evalTimes, a ≤ s.t

theorem hybridDt_spec {tEval : List ℝ} {t0 T : ℝ} {s : HState ℝ (ι → ℝ)}
    (hsort : tEval.Pairwise (· ≤ ·)) (h : DInv tEval t0 T s) :
    let d := hybridDt tEval T s
    0 ≤ d.1 ∧ s.t + d.1 ≤ T ∧ (d.2.2.1 = true → d.1 ≤ d.2.1) ∧
      (∀ te ∈ tEval.drop d.2.2.2, s.t + d.1 ≤ te) ∧
      (∀ te ∈ tEval.take d.2.2.2, te ∈ tEval.take s.ckpt ∨ te = s.t + d.1) := by
  intro d
  obtain ⟨c, hc⟩ : ∃ c, c = if T < s.t + s.dt then T - s.t else s.dt := ⟨_, rfl⟩
  have hc0 : 0 ≤ c := by
    rw [hc]; split_ifs
    · linarith [h.le]
    · exact h.dt
  have hcT : s.t + c ≤ T := by
    rw [hc]; split_ifs with h'
    · linarith
    · exact not_lt.1 h'
  have hcd : c ≤ s.dt := by
    rw [hc]; split_ifs with h'
    · linarith
    · exact le_refl _
  have hd : d = match tEval[s.ckpt]? with
      | some te =>
        if te < s.t + c then (te - s.t, c, true, s.ckpt + 1) else (c, s.dtOld, s.ckptFlag, s.ckpt)
      | none => (c, s.dtOld, s.ckptFlag, s.ckpt) := by
    simp only [d, hybridDt, ← hc]
    cases tEval[s.ckpt]? <;> rfl
  have hkeep : s.ckptFlag = true → c ≤ s.dtOld := fun hf => hcd.trans (h.flag hf)
  cases hg : tEval[s.ckpt]? with
  | none =>
    rw [hg] at hd
    rw [hd]
    refine ⟨hc0, hcT, hkeep, ?_, fun te hte => Or.inl hte⟩
    intro te hte
    have : tEval.drop s.ckpt = [] := List.drop_eq_nil_iff.2 (List.getElem?_eq_none_iff.1 hg)
    simp only [this] at hte
    cases hte
  | some te =>
    rw [hg] at hd
    obtain ⟨hlt, hget⟩ := List.getElem?_eq_some_iff.1 hg
    have hdrop : tEval.drop s.ckpt = te :: tEval.drop (s.ckpt + 1) := by
      rw [List.drop_eq_getElem_cons hlt, hget]
    have hle : ∀ a ∈ tEval.drop (s.ckpt + 1), te ≤ a := by
      have := hsort.sublist (List.drop_sublist s.ckpt tEval)
      rw [hdrop] at this
      exact (List.pairwise_cons.1 this).1
    have hte : s.t ≤ te := h.future te (by rw [hdrop]; simp)
    by_cases hlt' : te < s.t + c
    · simp only [if_pos hlt'] at hd
      rw [hd]
      refine ⟨by simp only; linarith, by simp only; linarith, fun _ => by simp only; linarith, ?_, ?_⟩
      · intro a ha
        have := hle a ha
        simp only; linarith
      · intro a ha
        rw [List.take_succ_eq_append_getElem hlt, List.mem_append] at ha
        rcases ha with ha | ha
        · exact Or.inl ha
        · right
          rw [List.mem_singleton, hget] at ha
          simp only; linarith
    · simp only [if_neg hlt'] at hd
      rw [hd]
      refine ⟨hc0, hcT, hkeep, ?_, fun te hte => Or.inl hte⟩
      intro a ha
      rw [hdrop] at ha
      rcases List.mem_cons.1 ha with rfl | ha
      · exact not_lt.1 hlt'
      · exact (not_lt.1 hlt').trans (hle a ha)

theorem adaptStep_nonneg {dt er safety mn mx : ℝ} {order : ℕ} (hdt : 0 ≤ dt) (hmn : 0 < mn) (hmx : 0 < mx) :
    0 ≤ adaptStep dt er safety mn mx order := by
  rcases hdt.eq_or_lt with rfl | h
  · unfold adaptStep
    split_ifs <;> simp
  · exact (adaptStep_pos h hmn hmx).le

/-- The flow branch preserves the invariant. -/
theorem dinv_flow (hs : FsalSolver solver args) {tEval : List ℝ} {t0 T : ℝ}
    (hsort : tEval.Pairwise (· ≤ ·)) {s : HState ℝ (ι → ℝ)} (h : DInv tEval t0 T s)
    (f : ℝ → (ι → ℝ) → (ι → ℝ)) (atol rtol : ℝ) (sel : Finset ι)
    (cbs : List (EventCallback ℝ (ι → ℝ))) (eventTol : ℝ) (k x' e : ι → ℝ) :
    DInv tEval t0 T (hybridFlow (hybridCfg f solver args atol rtol sel cbs eventTol) s
      (hybridDt tEval T s).1 (hybridDt tEval T s).2.1 (hybridDt tEval T s).2.2.1
      (hybridDt tEval T s).2.2.2 k x' e) := by
  obtain ⟨h1, h2, h3, h4, _⟩ := hybridDt_spec hsort h
  generalize hybridDt tEval T s = d at *
  have hadapt : ∀ er, 0 ≤ (hybridCfg f solver args atol rtol sel cbs eventTol).adapt
      (if d.2.2.1 then d.2.1 - d.1 else d.1) er := by
    intro er
    refine adaptStep_nonneg ?_ hs.min_pos hs.max_pos
    split_ifs with hf
    · linarith [h3 hf]
    · exact h1
  simp only [hybridFlow]
  by_cases hacc : (hybridCfg f solver args atol rtol sel cbs eventTol).errRatio s.x x' e ≤ 1
  · rw [if_pos hacc]
    refine ⟨by have := h.ge; simp only; linarith, h2, hadapt _, by simp, h4, ?_, ?_⟩
    · rw [List.pairwise_append]
      refine ⟨h.sorted, by simp, ?_⟩
      intro a ha b hb
      rw [List.mem_singleton] at hb
      rw [hb]
      linarith [h.range a ha]
    · intro a ha
      rcases List.mem_append.1 ha with ha | ha
      · have := h.range a ha
        simp only; linarith
      · rw [List.mem_singleton] at ha
        rw [ha]
  · rw [if_neg hacc]
    exact ⟨h.ge, h.le, hadapt _, by simp, fun te hte => by have := h4 te hte; simp only; linarith,
      h.sorted, h.range⟩

theorem dinv_jump {tEval : List ℝ} {t0 T : ℝ}
    (hsort : tEval.Pairwise (· ≤ ·)) {s : HState ℝ (ι → ℝ)} (h : DInv tEval t0 T s)
    (b : BState ℝ (ι → ℝ)) (cb : EventCallback ℝ (ι → ℝ)) (hb : s.t ≤ b.tInner)
    (hb' : b.tInner ≤ s.t + (hybridDt tEval T s).1) :
    DInv tEval t0 T (afterJump s (hybridDt tEval T s) b cb) := by
  obtain ⟨h1, h2, h3, h4, _⟩ := hybridDt_spec hsort h
  generalize hybridDt tEval T s = d at *
  refine ⟨h.ge.trans hb, hb'.trans h2, h1, h3, fun te hte => hb'.trans (h4 te hte), ?_, ?_⟩
  · simp only [afterJump]
    rw [List.pairwise_append, List.pairwise_append]
    refine ⟨⟨h.sorted, by simp, ?_⟩, by simp, ?_⟩
    · intro a ha c hc
      rw [List.mem_singleton] at hc
      rw [hc]
      exact (h.range a ha).trans hb
    · intro a ha c hc
      rw [List.mem_singleton] at hc
      rw [hc]
      rcases List.mem_append.1 ha with ha | ha
      · exact (h.range a ha).trans hb
      · rw [List.mem_singleton] at ha
        rw [ha]
  · intro a ha
    simp only [afterJump, List.append_assoc, List.mem_append, List.mem_singleton] at ha
    rcases ha with ha | ha | ha
    · exact (h.range a ha).trans hb
    · exact ha.le
    · exact ha.le

/-- The bisection stays inside the step when events are persistent. -/
theorem bisect_within (hs : FsalSolver solver args) {f : ℝ → (ι → ℝ) → (ι → ℝ)}
    {cbs : List (EventCallback ℝ (ι → ℝ))} {atol rtol eventTol : ℝ} {sel : Finset ι}
    (hpers : Persistent solver args f cbs) (p q : Point ι)
    (hq : Relation.ReflTransGen (fun p q => p.1 ≤ q.1 ∧ AnyStep solver args f p q) p q)
    (hqe : ¬ Quiet cbs q) {dt : ℝ} (hdt : 0 ≤ dt) (n : ℕ) :
    ∀ b : BState ℝ (ι → ℝ), KOk f b.tInner b.xInner b.k1 → 0 ≤ b.dtInner → p.1 ≤ b.tInner →
      b.tInner ≤ q.1 →
      Relation.ReflTransGen (fun p q => p.1 ≤ q.1 ∧ AnyStep solver args f p q) p (b.tInner, b.xInner) →
      ∀ b', bisect (hybridCfg f solver args atol rtol sel cbs eventTol) dt n b = .ok b' →
      p.1 ≤ b'.tInner ∧ b'.tInner ≤ q.1 := by
  induction n with
  | zero => intro b _ _ h1 h2 _ b' h; cases h; exact ⟨h1, h2⟩
  | succ n ih =>
    intro b hk hb0 h1 h2 hr b' h
    rw [bisect] at h
    by_cases htol : (hybridCfg f solver args atol rtol sel cbs eventTol).eventTol < b.dtInner
    · rw [if_pos htol] at h
      obtain ⟨k, x', e, st, g1, g2, g3⟩ := step_kok (atol := atol) (rtol := rtol) (sel := sel) (cbs := cbs)
        (eventTol := eventTol) (dt := b.dtInner / 2) hs hk
      have hany : AnyStep solver args f (b.tInner, b.xInner) (b.tInner + b.dtInner / 2, x') :=
        ⟨k, e, st, by simp only [add_sub_cancel_left]; exact g2⟩
      have hr' := hr.tail ⟨by simp only; linarith, hany⟩
      have hcb : (hybridCfg f solver args atol rtol sel cbs eventTol).callbacks = cbs := rfl
      simp only [g1, bind, Except.bind, StepOut.unpack4, pure, Except.pure, hcb] at h
      by_cases hqt : triggeredEvents (eventStates cbs (b.tInner + b.dtInner / 2) x') = 0
      · rw [if_pos hqt] at h
        have hquiet := (triggered_quiet _ _ _).1 hqt
        have hlt : b.tInner + b.dtInner / 2 < q.1 := by
          by_contra hge
          exact hpers p q _ hq hr' (not_lt.1 hge) hqe hquiet
        exact ih _ (Or.inr (by rw [g3])) hdt (by simp only; linarith) hlt.le hr' b' h
      · rw [if_neg hqt] at h
        exact ih ⟨b.tInner, b.dtInner / 2, b.xInner, b.k1, _⟩ hk (by simp only; linarith) h1 h2 hr b' h
    · rw [if_neg htol] at h
      cases h
      exact ⟨h1, h2⟩

/-- **C36 (partial: persistent events).** If an event that is on stays on until its jump is applied
(`Spec.Persistent`), the returned times are nondecreasing, start at `t_span[0]` and never pass
`t_span[-1]`.

Missing: without persistence the bisection can leave the step (`C36_refuted`). -/
theorem C36_times_partial (hs : FsalSolver solver args) (f : ℝ → (ι → ℝ) → (ι → ℝ)) (x : ι → ℝ)
    (t0 T : ℝ) (tEval : List ℝ) (hsort : (t0 :: tEval).Pairwise (· ≤ ·))
    (hT : (t0 :: tEval).getLast? = some T) (jSpan : ℕ) (cbs : List (EventCallback ℝ (ι → ℝ)))
    (hpers : Persistent solver args f cbs) (atol rtol eventTol : ℝ)
    (jumpFirst : Bool) (sel : Finset ι) (fuel : ℕ) (ts : List ℝ) (xs : List (ι → ℝ))
    (h : odeintHybrid fuel (pureField f) x (t0 :: tEval) jSpan solver cbs atol rtol eventTol jumpFirst
      sel args = .ok (some (ts, xs))) :
    ts.Pairwise (· ≤ ·) ∧ ∀ t ∈ ts, t ≤ T := by
  obtain ⟨x0, j, dt, _, _, _, _, hdt, _, e⟩ := odeintHybrid_loop f x t0 T tEval hT solver cbs atol rtol
    eventTol jumpFirst sel args
  have hsort' := (List.pairwise_cons.1 hsort).2
  rw [e] at h
  cases hl : hybridLoop (hybridCfg f solver args atol rtol sel cbs eventTol) tEval T j jSpan fuel
    (hybridInit t0 x0 (f t0 x0) dt) with
  | error err => rw [hl] at h; cases h
  | ok r =>
    cases r with
    | none => rw [hl] at h; cases h
    | some s =>
      rw [hl] at h
      cases h
      have hle : t0 ≤ T := by
        have := List.mem_of_getLast? hT
        rcases List.mem_cons.1 this with h | h
        · exact h.ge
        · exact (List.pairwise_cons.1 hsort).1 T h
      obtain ⟨hP, -⟩ := hybridLoop_induct (hybridCfg f solver args atol rtol sel cbs eventTol) tEval T j jSpan
        (fun s => KOk f s.t s.x s.k1 ∧ DInv tEval t0 T s)
        (fun s s' hP _ hit => by
          obtain ⟨hk, hD⟩ := hP
          obtain ⟨g1, g2, g3, g4, _⟩ := hybridDt_spec hsort' hD
          obtain ⟨k, x', e', st, h1, h2, hcase⟩ := hybridIter_cases (sel := sel) (atol := atol)
            (rtol := rtol) (eventTol := eventTol) (cbs := cbs) hs tEval T s hk
          rcases hcase with ⟨hq, hr⟩ | ⟨hnq, b, hb, hbis, ⟨-, hr⟩ | ⟨c, cb, hc1, hc2, -, hr⟩⟩
          · rw [hr] at hit
            cases hit
            refine ⟨?_, dinv_flow hs hsort' hD f atol rtol sel cbs eventTol k x' e'⟩
            simp only [hybridFlow]
            by_cases hacc : (hybridCfg f solver args atol rtol sel cbs eventTol).errRatio s.x x' e' ≤ 1
            · rw [if_pos hacc]; exact Or.inr (by rw [h2])
            · rw [if_neg hacc]; exact hk
          · rw [hr] at hit; cases hit
          · rw [hr] at hit
            cases hit
            have hstep : AnyStep solver args f (s.t, s.x) (s.t + (hybridDt tEval T s).1, x') :=
              ⟨k, e', st, by simp only [add_sub_cancel_left]; exact h1⟩
            obtain ⟨w1, w2⟩ := bisect_within hs hpers (s.t, s.x) (s.t + (hybridDt tEval T s).1, x')
              (Relation.ReflTransGen.single ⟨by simp only; linarith, hstep⟩) hnq g1 100
              (bisectStart s (hybridDt tEval T s).1 (eventStates cbs (s.t + (hybridDt tEval T s).1) x'))
              hk g1 (le_refl _) (by simp only [bisectStart]; linarith) Relation.ReflTransGen.refl b hbis
            exact ⟨Or.inl rfl, dinv_jump hsort' hD b cb w1 w2⟩) fuel _ s
        ⟨Or.inr rfl, le_refl _, hle, hdt.le, by simp [hybridInit],
          by simpa [hybridInit] using (List.pairwise_cons.1 hsort).1, by simp [hybridInit],
          by simp [hybridInit]⟩ hl
      exact ⟨hP.2.sorted, fun t ht => (hP.2.range t ht).trans hP.2.le⟩

/-! ### C37 and C35: runs without events -/

theorem neverFires_persistent {f : ℝ → (ι → ℝ) → (ι → ℝ)} {cbs : List (EventCallback ℝ (ι → ℝ))}
    (h : NeverFires cbs) : Persistent solver args f cbs := fun _ q _ _ _ _ hq => absurd (h q) hq

theorem trace_chain {f : ℝ → (ι → ℝ) → (ι → ℝ)} {sel : Finset ι} {atol rtol : ℝ}
    {cbs : List (EventCallback ℝ (ι → ℝ))} (hnf : NeverFires cbs) {p : Point ι} {l : List (Point ι)}
    (h : HybridTrace solver args f sel atol rtol cbs p l) :
    (p :: l).IsChain (FlowStep solver args f sel atol rtol) := by
  induction h with
  | nil p => simp
  | flow h1 _ _ ih => exact List.isChain_cons_cons.2 ⟨h1, ih⟩
  | jump cb _ _ h3 _ _ =>
    obtain ⟨i, h1, h2, _⟩ := h3
    cases h2.symm.trans (hnf _ cb (List.mem_of_getElem? h1))

/-- **C37 (partial: nondecreasing instead of strictly increasing times).** If no callback ever fires
and `j_span ≥ 1`, the outputs of `odeint_hybrid` start at `(t_span[0], x)`, consecutive outputs are
linked by a step within the tolerances, the times are nondecreasing and end exactly at `t_span[-1]`; and no exception is
raised.

Missing: the times need not increase strictly (`C37_strict_refuted`). -/
theorem C37_no_events_partial (hs : FsalSolver solver args) (f : ℝ → (ι → ℝ) → (ι → ℝ)) (x : ι → ℝ)
    (t0 T : ℝ) (tEval : List ℝ) (hsort : (t0 :: tEval).Pairwise (· ≤ ·))
    (hT : (t0 :: tEval).getLast? = some T) (jSpan : ℕ) (hj : 1 ≤ jSpan)
    (cbs : List (EventCallback ℝ (ι → ℝ))) (hnf : NeverFires cbs) (atol rtol eventTol : ℝ)
    (jumpFirst : Bool) (sel : Finset ι) (fuel : ℕ) :
    ∃ r, odeintHybrid fuel (pureField f) x (t0 :: tEval) jSpan solver cbs atol rtol eventTol jumpFirst
      sel args = .ok r ∧ ∀ ts xs, r = some (ts, xs) →
      xs.length = ts.length ∧ ts.head? = some t0 ∧ xs.head? = some x ∧ ts.getLast? = some T ∧
      ts.Pairwise (· ≤ ·) ∧ (ts.zip xs).IsChain (FlowStep solver args f sel atol rtol) := by
  cases ho : odeintHybrid fuel (pureField f) x (t0 :: tEval) jSpan solver cbs atol rtol eventTol jumpFirst
      sel args with
  | error err =>
    exfalso
    obtain ⟨x0, j, dt, _, _, _, _, hdt, _, e⟩ := odeintHybrid_loop f x t0 T tEval hT solver cbs atol rtol
      eventTol jumpFirst sel args
    rw [e] at ho
    have key : ∀ fuel s, KOk f s.t s.x s.k1 → ∃ r,
        hybridLoop (hybridCfg f solver args atol rtol sel cbs eventTol) tEval T j jSpan fuel s = .ok r := by
      intro fuel
      induction fuel with
      | zero => intro s _; exact ⟨none, rfl⟩
      | succ fuel ih =>
        intro s hk
        by_cases hc : s.t < T ∧ j < jSpan
        · obtain ⟨k, x', e', st, h1, h2, hcase⟩ := hybridIter_cases (sel := sel) (atol := atol)
            (rtol := rtol) (eventTol := eventTol) (cbs := cbs) hs tEval T s hk
          rcases hcase with ⟨hq, hr⟩ | ⟨hnq, -⟩
          · rw [hybridLoop, if_pos hc, hr]
            refine ih _ ?_
            simp only [hybridFlow]
            by_cases hacc : (hybridCfg f solver args atol rtol sel cbs eventTol).errRatio s.x x' e' ≤ 1
            · rw [if_pos hacc]; exact Or.inr (by rw [h2])
            · rw [if_neg hacc]; exact hk
          · exact absurd (hnf _) hnq
        · exact ⟨some s, by rw [hybridLoop, if_neg hc]; rfl⟩
    obtain ⟨r, hr⟩ := key fuel (hybridInit t0 x0 (f t0 x0) dt) (Or.inr rfl)
    rw [hr] at ho
    cases ho
  | ok r =>
    refine ⟨r, rfl, ?_⟩
    intro ts xs hts
    subst hts
    obtain ⟨g1, x0, l, g2, g3, g4⟩ := C33_trace hs f x t0 tEval jSpan cbs atol rtol eventTol jumpFirst sel
      fuel ts xs ho
    have hx0 : x0 = x := by
      rcases g2 with ⟨_, h⟩ | ⟨_, cb, ⟨i, h1, h2, _⟩, _⟩
      · exact h
      · cases h2.symm.trans (hnf _ cb (List.mem_of_getElem? h1))
    subst hx0
    obtain ⟨g5, g6⟩ := C36_times_partial hs f x0 t0 T tEval hsort hT jSpan cbs (neverFires_persistent hnf) atol rtol
      eventTol jumpFirst sel fuel ts xs ho
    have hts : ts = t0 :: l.map Prod.fst := by
      have := congrArg (List.map Prod.fst) g3
      rwa [List.map_fst_zip (by omega)] at this
    have hxs : xs = x0 :: l.map Prod.snd := by
      have := congrArg (List.map Prod.snd) g3
      rwa [List.map_snd_zip (by omega)] at this
    refine ⟨g1, by rw [hts]; rfl, by rw [hxs]; rfl, ?_, g5, by rw [g3]; exact trace_chain hnf g4⟩
    -- the last time
    obtain ⟨x1, j, dt, _, hj1, hj2, _, hdt, _, e⟩ := odeintHybrid_loop f x0 t0 T tEval hT solver cbs atol rtol
      eventTol jumpFirst sel args
    rw [e] at ho
    cases hl : hybridLoop (hybridCfg f solver args atol rtol sel cbs eventTol) tEval T j jSpan fuel
      (hybridInit t0 x1 (f t0 x1) dt) with
    | error err => rw [hl] at ho; cases ho
    | ok r =>
      cases r with
      | none => rw [hl] at ho; cases ho
      | some s =>
        rw [hl] at ho
        cases ho
        obtain ⟨hP, hexit⟩ := hybridLoop_induct _ tEval T j jSpan
          (fun s => TraceInv solver args f sel atol rtol cbs (t0, x1) s)
          (fun s s' hs' _ hit => traceInv_step hs hs' hit) fuel _ s
          ⟨Or.inr rfl, rfl, [], rfl, .nil _, rfl⟩ hl
        obtain ⟨l', q1, q2, q3⟩ := hP.trace
        have hlast : s.evalTimes.getLast? = some s.t := by
          have hh := congrArg (List.map Prod.fst) q1
          simp only [houts] at hh
          rw [List.map_fst_zip (by rw [hP.len])] at hh
          rw [hh]
          simp only [List.map_cons, List.getLast?_cons]
          have := congrArg Prod.fst q3
          simp only [lastPoint] at this
          rw [← this, List.getLast?_map]
          cases l'.getLast? <;> rfl
        rw [hlast]
        have h1 : s.t ≤ T := g6 s.t (List.mem_of_getLast? hlast)
        have h2 : ¬ s.t < T := fun hlt => hexit ⟨hlt, by
          have := (hj2 (Or.inr (hnf _))).1
          omega⟩
        rw [le_antisymm h1 (not_lt.1 h2)]

/-- **C35 (partial: no events and no rejected step).** If no callback fires and every step passes the
error test, every time in `t_span` is among the returned times.

Missing: an event or a rejection during a step towards a checkpoint makes the code forget the
checkpoint (`C35_refuted`). -/
theorem C35_visits_partial (hs : FsalSolver solver args) (f : ℝ → (ι → ℝ) → (ι → ℝ)) (x : ι → ℝ)
    (t0 : ℝ) (tEval : List ℝ) (hsort : (t0 :: tEval).Pairwise (· ≤ ·)) (jSpan : ℕ) (hj : 1 ≤ jSpan)
    (cbs : List (EventCallback ℝ (ι → ℝ))) (hnf : NeverFires cbs) (atol rtol eventTol : ℝ)
    (sel : Finset ι)
    (hacc : ∀ x t dt k x' e st, solver.step (fun t x => .ok (f t x)) x t dt none args =
      .ok (.four k x' e st) → errorNorm sel atol rtol x x' e ≤ 1)
    (jumpFirst : Bool) (fuel : ℕ) (ts : List ℝ) (xs : List (ι → ℝ))
    (h : odeintHybrid fuel (pureField f) x (t0 :: tEval) jSpan solver cbs atol rtol eventTol jumpFirst
      sel args = .ok (some (ts, xs))) : ∀ t ∈ t0 :: tEval, t ∈ ts := by
  obtain ⟨T, hT⟩ : ∃ T, (t0 :: tEval).getLast? = some T := ⟨_, List.getLast?_eq_some_getLast (by simp)⟩
  obtain ⟨r, hr, hr'⟩ := C37_no_events_partial hs f x t0 T tEval hsort hT jSpan hj cbs hnf atol rtol
    eventTol jumpFirst sel fuel
  have hh := hr ▸ h
  cases hh
  obtain ⟨_, q1, _, q2, _, _⟩ := hr' ts xs rfl
  obtain ⟨x0, j, dt, _, _, hj2, _, hdt, _, e⟩ := odeintHybrid_loop f x t0 T tEval hT solver cbs atol rtol
    eventTol jumpFirst sel args
  have hsort' := (List.pairwise_cons.1 hsort).2
  rw [e] at h
  cases hl : hybridLoop (hybridCfg f solver args atol rtol sel cbs eventTol) tEval T j jSpan fuel
    (hybridInit t0 x0 (f t0 x0) dt) with
  | error err => rw [hl] at h; cases h
  | ok r =>
    cases r with
    | none => rw [hl] at h; cases h
    | some s =>
      rw [hl] at h
      cases h
      have hle : t0 ≤ T := by
        have := List.mem_of_getLast? hT
        rcases List.mem_cons.1 this with h | h
        · exact h.ge
        · exact (List.pairwise_cons.1 hsort).1 T h
      obtain ⟨hP, hexit⟩ := hybridLoop_induct (hybridCfg f solver args atol rtol sel cbs eventTol) tEval T j
        jSpan (fun s => KOk f s.t s.x s.k1 ∧ DInv tEval t0 T s ∧
          ∀ te ∈ tEval.take s.ckpt, te ∈ s.evalTimes)
        (fun s s' hP _ hit => by
          obtain ⟨hk, hD, hv⟩ := hP
          obtain ⟨g1, g2, g3, g4, g5⟩ := hybridDt_spec hsort' hD
          obtain ⟨k, x', e', st, h1, h2, hcase⟩ := hybridIter_cases (sel := sel) (atol := atol)
            (rtol := rtol) (eventTol := eventTol) (cbs := cbs) hs tEval T s hk
          rcases hcase with ⟨hq, hr⟩ | ⟨hnq, -⟩
          · rw [hr] at hit
            cases hit
            have hD' := dinv_flow hs hsort' hD f atol rtol sel cbs eventTol k x' e'
            have ha : (hybridCfg f solver args atol rtol sel cbs eventTol).errRatio s.x x' e' ≤ 1 := by
              have := hacc _ _ _ _ _ _ _ h1
              rw [← errorRatio_eq] at this
              exact this
            simp only [hybridFlow, if_pos ha] at hD' ⊢
            refine ⟨Or.inr (by rw [h2]), hD', ?_⟩
            intro te hte
            rcases g5 te hte with h | h
            · exact List.mem_append_left _ (hv te h)
            · exact List.mem_append_right _ (by rw [h]; simp)
          · exact absurd (hnf _) hnq) fuel _ s
        ⟨Or.inr rfl, ⟨le_refl _, hle, hdt.le, by simp [hybridInit],
          by simpa [hybridInit] using (List.pairwise_cons.1 hsort).1, by simp [hybridInit],
          by simp [hybridInit]⟩, by simp [hybridInit]⟩ hl
      obtain ⟨_, hD, hv⟩ := hP
      intro t ht
      rcases List.mem_cons.1 ht with rfl | ht
      · exact List.mem_of_mem_head? q1
      · rw [← List.take_append_drop s.ckpt tEval, List.mem_append] at ht
        rcases ht with ht | ht
        · exact hv t ht
        · have h1 := hD.future t ht
          have h2 : ¬ s.t < T := fun hlt => hexit ⟨hlt, by
            have := (hj2 (Or.inr (hnf _))).1
            omega⟩
          have h3 : t ≤ T := by
            have hm := List.mem_of_mem_drop ht
            have hTl : tEval.getLast? = some T := by
              cases tEval with
              | nil => cases hm
              | cons a l => rwa [getLast?_cons_cons] at hT
            obtain ⟨ys, rfl⟩ := List.getLast?_eq_some_iff.1 hTl
            rcases List.mem_append.1 hm with hm | hm
            · exact (List.pairwise_append.1 hsort').2.2 t hm T (by simp)
            · simp at hm; exact hm.le
          have : t = T := le_antisymm h3 ((not_lt.1 h2).trans h1)
          rw [this]
          exact List.mem_of_getLast? q2

end Torchdyn
