import Verif.Model.BatchEvents
import Verif.Proofs.Hybrid
import Verif.Proofs.AdaptiveApi

/-!
C150: `odeint_hybrid` with events that are checked for each element of a batch.
-/

namespace Torchdyn

open Spec

/-! ### One entry -/

/-- The callback whose `check_event` returns the only entry of the tensor. -/
def onlyEntry {K V : Type} (cb : BatchCallback K V) : EventCallback K V :=
  { checkEvent := fun t x => (cb.checkEvent t x).headD false, jumpMap := cb.jumpMap }

theorem singles {K V : Type} {cbs : List (BatchCallback K V)}
    (h1 : ∀ cb ∈ cbs, ∀ t x, (cb.checkEvent t x).length = 1) (t : K) (x : V) :
    eventStatesBatch cbs t x = (eventStates (cbs.map onlyEntry) t x).map (fun b => [b]) := by
  simp only [eventStatesBatch, eventStates, List.map_map]
  refine List.map_congr_left fun cb hcb => ?_
  obtain ⟨b, hb⟩ := List.length_eq_one_iff.1 (h1 cb hcb t x)
  simp [onlyEntry, hb]

theorem triggered_cons (b : Bool) (l : List Bool) :
    triggeredEvents (b :: l) = (if b then 1 else 0) + triggeredEvents l := by
  cases b <;> simp [triggeredEvents, Nat.add_comm]

theorem triggeredBatch_singles (l : List Bool) :
    (triggeredBatch (l.map (fun b => [b])) : Except PyErr _) = .ok [triggeredEvents l] := by
  have key : ∀ (l : List Bool) (k : ℕ), ((l.map (fun b => [b])).map
      (fun e => e.map (fun a => if (a != false) && (false == false) then 1 else 0))).foldlM
        (addTensor (m := Except PyErr)) [k] = .ok [k + triggeredEvents l] := by
    intro l
    induction l with
    | nil => intro k; rfl
    | cons b l ih =>
      intro k
      simp only [List.map_cons, List.map_nil, List.foldlM_cons]
      have e : (addTensor [k] [if (b != false) && (false == false) then 1 else 0] : Except PyErr _) =
          .ok [k + (if b then 1 else 0)] := by cases b <;> rfl
      rw [e]
      simp only [bind, Except.bind]
      rw [ih, triggered_cons, Nat.add_assoc]
  have := key l 0
  rw [Nat.zero_add] at this
  exact this

theorem anyTriggered_singles (l : List Bool) :
    (anyTriggered (l.map (fun b => [b])) : Except PyErr _) = .ok (decide (0 < triggeredEvents l)) := by
  rw [anyTriggered, triggeredBatch_singles]; rfl

theorem noneTriggered_singles (l : List Bool) :
    (noneTriggered (l.map (fun b => [b])) : Except PyErr _) = .ok (decide (triggeredEvents l = 0)) := by
  rw [noneTriggered, triggeredBatch_singles]; rfl

theorem firstActiveBatch_singles (l : List Bool) :
    (firstActiveBatch (l.map (fun b => [b])) : Except PyErr _) = firstActive l := by
  have key : ∀ l : List Bool, (l.map (fun b => [b])).mapM (fun e => (truthTensor e : Except PyErr Bool)) = .ok l := by
    intro l
    induction l with
    | nil => rfl
    | cons b l ih =>
      rw [List.map_cons, List.mapM_cons, ih]
      rfl
  rw [firstActiveBatch, key]
  rfl

theorem getItem_onlyEntry {K V : Type} (cbs : List (BatchCallback K V)) (i : ℕ) :
    (getItem (cbs.map onlyEntry) i : Except PyErr _) = (getItem cbs i : Except PyErr _).map onlyEntry := by
  unfold getItem
  rw [List.getElem?_map]
  cases cbs[i]? <;> rfl

section single

variable {ι : Type} {cbs : List (BatchCallback ℝ (ι → ℝ))}
  (h1 : ∀ cb ∈ cbs, ∀ t x, (cb.checkEvent t x).length = 1)

include h1

theorem bisectBatch_single (cfg : HybridCfg (Except PyErr) ℝ (ι → ℝ)) (dt : ℝ) (n : ℕ) : ∀ b : BState ℝ (ι → ℝ),
    bisectBatch cfg cbs dt n ({ b with events := [] }, b.events.map (fun e => [e])) =
      (bisect { cfg with callbacks := cbs.map onlyEntry } dt n b).map
        (fun b => ({ b with events := [] }, b.events.map (fun e => [e]))) := by
  induction n with
  | zero => intro b; rfl
  | succ n ih =>
    intro b
    rw [bisectBatch, bisect]
    by_cases ht : cfg.eventTol < b.dtInner
    · rw [if_pos ht, if_pos ht]
      cases hst : cfg.step b.xInner b.tInner (b.dtInner / 2) b.k1 with
      | error e => simp only [bind, Except.bind, Except.map, hst]
      | ok o =>
        simp only [bind, Except.bind, hst]
        cases hu : (o.unpack4 : Except PyErr _) with
        | error e => simp only [Except.map]
        | ok q =>
          obtain ⟨fNew, x_, e, st⟩ := q
          dsimp only
          rw [singles h1, noneTriggered_singles]
          dsimp only
          by_cases h0 : triggeredEvents (eventStates (cbs.map onlyEntry) (b.tInner + b.dtInner / 2) x_) = 0
          · rw [if_pos h0, if_pos (decide_eq_true h0)]
            exact ih { tInner := b.tInner + b.dtInner / 2, dtInner := dt, xInner := x_, k1 := some fNew,
                       events := eventStates (cbs.map onlyEntry) (b.tInner + b.dtInner / 2) x_ }
          · rw [if_neg h0, if_neg (by simpa using h0)]
            exact ih { tInner := b.tInner, dtInner := b.dtInner / 2, xInner := b.xInner, k1 := b.k1,
                       events := eventStates (cbs.map onlyEntry) (b.tInner + b.dtInner / 2) x_ }
    · rw [if_neg ht, if_neg ht]
      rfl

theorem batchJump_single (cfg : HybridCfg (Except PyErr) ℝ (ι → ℝ)) (s : HState ℝ (ι → ℝ)) (dt dtOld : ℝ) (fl : Bool)
    (c : ℕ) (evid : List Bool) : batchJump cfg cbs s dt dtOld fl c (evid.map (fun e => [e])) =
      hybridJump { cfg with callbacks := cbs.map onlyEntry } s dt dtOld fl c evid := by
  have e := bisectBatch_single h1 cfg dt 100
    { tInner := s.t, dtInner := dt, xInner := s.x, k1 := s.k1, events := evid }
  dsimp only at e
  rw [batchJump, hybridJump, e]
  generalize bisect (m := Except PyErr) _ dt 100 _ = R
  cases R with
  | error e => rfl
  | ok b =>
    simp only [bind, Except.bind, Except.map]
    rw [firstActiveBatch_singles]
    cases (firstActive b.events : Except PyErr _) with
    | error e => rfl
    | ok i =>
      dsimp only
      rw [getItem_onlyEntry]
      cases (getItem cbs i : Except PyErr _) <;> rfl

theorem batchIter_single (cfg : HybridCfg (Except PyErr) ℝ (ι → ℝ)) (tEval : List ℝ) (T : ℝ) (s : HState ℝ (ι → ℝ)) :
    batchIter cfg cbs tEval T s = hybridIter { cfg with callbacks := cbs.map onlyEntry } tEval T s := by
  rw [batchIter, hybridIter]
  obtain ⟨dt, dtOld, fl, c⟩ := hybridDt tEval T s
  dsimp only
  cases hst : cfg.step s.x s.t dt s.k1 with
  | error e => rfl
  | ok o =>
    simp only [bind, Except.bind]
    cases hu : (o.unpack4 : Except PyErr _) with
    | error e => rfl
    | ok q =>
      obtain ⟨fNew, xNew, xe, st⟩ := q
      dsimp only
      rw [singles h1, anyTriggered_singles]
      dsimp only
      by_cases h0 : 0 < triggeredEvents (eventStates (cbs.map onlyEntry) (s.t + dt) xNew)
      · rw [if_pos h0, if_pos (decide_eq_true h0)]
        exact batchJump_single h1 cfg s dt dtOld fl c _
      · rw [if_neg h0, if_neg (by simpa using h0)]
        rfl

theorem batchLoop_single (cfg : HybridCfg (Except PyErr) ℝ (ι → ℝ)) (tEval : List ℝ) (T : ℝ) (jn jSpan fuel : ℕ) :
    ∀ s, batchLoop cfg cbs tEval T jn jSpan fuel s =
      hybridLoop { cfg with callbacks := cbs.map onlyEntry } tEval T jn jSpan fuel s := by
  induction fuel with
  | zero => intro s; rfl
  | succ fuel ih =>
    intro s
    rw [batchLoop, hybridLoop, batchIter_single h1]
    simp only [ih]

theorem batchInitialJump_single (jumpFirst : Bool) (t : ℝ) (x : ι → ℝ) :
    (batchInitialJump cbs jumpFirst t x : Except PyErr _) = initialJump (cbs.map onlyEntry) jumpFirst t x := by
  cases jumpFirst with
  | false => rfl
  | true =>
    rw [batchInitialJump, initialJump, if_pos rfl, if_pos rfl]
    simp only [singles h1, bind, Except.bind]
    rw [anyTriggered_singles]
    dsimp only
    by_cases h0 : 0 < triggeredEvents (eventStates (cbs.map onlyEntry) t x)
    · rw [if_pos h0, if_pos (decide_eq_true h0), firstActiveBatch_singles]
      cases (firstActive (eventStates (cbs.map onlyEntry) t x) : Except PyErr _) with
      | error e => rfl
      | ok i =>
        dsimp only
        rw [getItem_onlyEntry]
        cases (getItem cbs i : Except PyErr _) <;> rfl
    · rw [if_neg h0, if_neg (by simpa using h0)]

end single

variable {ι : Type} [Fintype ι] {A : Type}

/-- **C150 (partial).** When every `check_event` returns a tensor with exactly one entry (a batch of size one),
`odeint_hybrid` does what it does with callbacks that return the entry as a `bool`, for every field, solver and span: all the
theorems on `odeintHybrid` apply. Missing: larger batches, see `C150_batch_refuted`. -/
theorem C150_single_partial (cbs : List (BatchCallback ℝ (ι → ℝ))) (h1 : ∀ cb ∈ cbs, ∀ t x, (cb.checkEvent t x).length = 1)
    (fuel : ℕ) (f : ℝ → (ι → ℝ) → Except PyErr (ι → ℝ)) (x : ι → ℝ) (tSpan : List ℝ) (jSpan : ℕ)
    (solver : Solver (Except PyErr) ℝ (ι → ℝ) A) (atol rtol tol : ℝ) (jumpFirst : Bool) (sel : Finset ι) (args : A) :
    odeintHybridBatch fuel f x tSpan jSpan solver cbs atol rtol tol jumpFirst sel args =
      odeintHybrid fuel f x tSpan jSpan solver
        (cbs.map fun cb => { checkEvent := fun t x => (cb.checkEvent t x).headD false, jumpMap := cb.jumpMap })
        atol rtol tol jumpFirst sel args := by
  change _ = odeintHybrid fuel f x tSpan jSpan solver (cbs.map onlyEntry) atol rtol tol jumpFirst sel args
  simp only [odeintHybridBatch, odeintHybrid, batchInitialJump_single h1, batchLoop_single h1]

/-! ### Other numbers of entries -/

theorem addTensor_length (a b c : List ℕ) (h : (addTensor a b : Except PyErr _) = .ok c)
    (hab : a.length ≠ 1 ∨ b.length ≠ 1) : c.length ≠ 1 := by
  unfold addTensor at h
  split_ifs at h with hl
  · cases h
    simp only [List.length_zipWith]
    omega
  · revert h
    match a, b with
    | [], [] => exact absurd rfl hl
    | [], [y] => intro h; cases h; simp
    | [], _ :: _ :: _ => intro h; cases h
    | [x], [] => intro h; cases h; simp
    | [x], [y] => exact absurd rfl hl
    | [x], _ :: _ :: _ => intro h; cases h; simp
    | _ :: _ :: _, [] => intro h; cases h
    | _ :: _ :: _, [y] => intro h; cases h; simp
    | _ :: _ :: _, _ :: _ :: _ => intro h; cases h

theorem addTensor_error (a b : List ℕ) (e : PyErr) (h : (addTensor a b : Except PyErr _) = .error e) :
    e = .runtimeError := by
  unfold addTensor at h
  split_ifs at h with hl
  · cases h
  · revert h
    match a, b with
    | [], [] => exact absurd rfl hl
    | [], [y] => intro h; cases h
    | [], _ :: _ :: _ => intro h; cases h; rfl
    | [x], [] => intro h; cases h
    | [x], [y] => exact absurd rfl hl
    | [x], _ :: _ :: _ => intro h; cases h
    | _ :: _ :: _, [] => intro h; cases h; rfl
    | _ :: _ :: _, [y] => intro h; cases h
    | _ :: _ :: _, _ :: _ :: _ => intro h; cases h; rfl

theorem triggeredBatch_bad (evid : List (List Bool)) (h : ∃ e ∈ evid, e.length ≠ 1) :
    (triggeredBatch evid : Except PyErr _) = .error .runtimeError ∨
      ∃ c, (triggeredBatch evid : Except PyErr _) = .ok c ∧ c.length ≠ 1 := by
  have key : ∀ (evid : List (List Bool)) (k : List ℕ), (k.length ≠ 1 ∨ ∃ e ∈ evid, e.length ≠ 1) →
      (evid.map (fun e => e.map (fun a => if (a != false) && (false == false) then 1 else 0))).foldlM
        (addTensor (m := Except PyErr)) k = .error .runtimeError ∨
      ∃ c, (evid.map (fun e => e.map (fun a => if (a != false) && (false == false) then 1 else 0))).foldlM
        (addTensor (m := Except PyErr)) k = .ok c ∧ c.length ≠ 1 := by
    intro evid
    induction evid with
    | nil => intro k hk; exact .inr ⟨k, rfl, by simpa using hk⟩
    | cons e evid ih =>
      intro k hk
      simp only [List.map_cons, List.foldlM_cons]
      cases ha : (addTensor k (e.map (fun a => if (a != false) && (false == false) then 1 else 0)) : Except PyErr _) with
      | error r => exact .inl (by rw [addTensor_error _ _ _ ha]; rfl)
      | ok c =>
        refine ih c ?_
        by_cases hk' : k.length ≠ 1 ∨ e.length ≠ 1
        · exact .inl (addTensor_length _ _ _ ha (by simpa using hk'))
        · right
          rcases hk with hk | ⟨e', he', hl⟩
          · exact absurd (.inl hk) hk'
          · rcases List.mem_cons.1 he' with rfl | he'
            · exact absurd (.inr hl) hk'
            · exact ⟨e', he', hl⟩
  exact key evid [0] (.inr h)

theorem anyTriggered_bad (evid : List (List Bool)) (h : ∃ e ∈ evid, e.length ≠ 1) :
    (anyTriggered evid : Except PyErr _) = .error .runtimeError := by
  rw [anyTriggered]
  rcases triggeredBatch_bad evid h with h | ⟨c, h, hc⟩
  · rw [h]; rfl
  · rw [h]
    simp only [bind, Except.bind]
    match c with
    | [] => rfl
    | [_] => exact absurd rfl hc
    | _ :: _ :: _ => rfl

/-- **C150.** It is not true that `odeint_hybrid` integrates a batch whose events are checked for each element. As soon as one
`check_event` returns a tensor with a number of entries other than one, the call raises `RuntimeError`, whatever the entries are:
with `priority='jump'` before anything else is computed, if that happens at the initial point; otherwise, if it happens at every
point, after the first step. The sizes may differ between callbacks, and no event needs to take place. -/
theorem C150_batch_refuted (cbs : List (BatchCallback ℝ (ι → ℝ))) (x : ι → ℝ) (t0 T : ℝ) (tEval : List ℝ)
    (hT : (t0 :: tEval).getLast? = some T) (solver : Solver (Except PyErr) ℝ (ι → ℝ) A) (atol rtol tol : ℝ) (sel : Finset ι)
    (args : A) :
    ((∃ cb ∈ cbs, (cb.checkEvent t0 x).length ≠ 1) → ∀ fuel (f : ℝ → (ι → ℝ) → Except PyErr (ι → ℝ)) jSpan,
      odeintHybridBatch fuel f x (t0 :: tEval) jSpan solver cbs atol rtol tol true sel args = .error .runtimeError) ∧
    ((∀ t y, ∃ cb ∈ cbs, (cb.checkEvent t y).length ≠ 1) → FsalSolver solver args → t0 < T →
      ∀ fuel (f : ℝ → (ι → ℝ) → ι → ℝ) jSpan jumpFirst, 0 < jSpan → 0 < fuel →
      odeintHybridBatch fuel (pureField f) x (t0 :: tEval) jSpan solver cbs atol rtol tol jumpFirst sel args =
        .error .runtimeError) := by
  have hgT : (t0 :: tEval)[(t0 :: tEval).length - 1]? = some T := by
    rw [← List.getLast?_eq_getElem?, hT]
  have g0 : (getItem (t0 :: tEval) 0 : Except PyErr ℝ) = .ok t0 := rfl
  have gT : (getItem (t0 :: tEval) ((t0 :: tEval).length - 1) : Except PyErr ℝ) = .ok T := by
    rw [getItem, hgT]; rfl
  have hev : ∀ t y, (∃ cb ∈ cbs, (cb.checkEvent t y).length ≠ 1) →
      (anyTriggered (eventStatesBatch cbs t y) : Except PyErr _) = .error .runtimeError := by
    rintro t y ⟨cb, h1, h2⟩
    exact anyTriggered_bad _ ⟨_, List.mem_map_of_mem h1, h2⟩
  have first : (∃ cb ∈ cbs, (cb.checkEvent t0 x).length ≠ 1) → ∀ fuel (f : ℝ → (ι → ℝ) → Except PyErr (ι → ℝ)) jSpan,
      odeintHybridBatch fuel f x (t0 :: tEval) jSpan solver cbs atol rtol tol true sel args = .error .runtimeError := by
    intro h fuel f jSpan
    have hj : (batchInitialJump cbs true t0 x : Except PyErr _) = .error .runtimeError := by
      rw [batchInitialJump, if_pos rfl]
      simp only [hev t0 x h, bind, Except.bind]
    simp only [odeintHybridBatch, g0, gT, hj, bind, Except.bind]
  refine ⟨first, fun h hs ht fuel f jSpan jumpFirst hj hf => ?_⟩
  cases jumpFirst with
  | true => exact first (h t0 x) fuel _ jSpan
  | false =>
    obtain ⟨fuel, rfl⟩ := Nat.exists_eq_succ_of_ne_zero hf.ne'
    obtain ⟨dt, hdt⟩ := initStep_ok f (f t0 x) x t0 solver.order atol rtol
    have hj0 : (batchInitialJump cbs false t0 x : Except PyErr _) = .ok (x, 0) := rfl
    have hk : (pureField f t0 x : Except PyErr _) = .ok (f t0 x) := rfl
    simp only [odeintHybridBatch, g0, gT, hj0, bind, Except.bind, hk, hdt, List.drop_succ_cons, List.drop_zero]
    rw [batchLoop, if_pos ⟨ht, hj⟩, batchIter]
    generalize hybridDt tEval T _ = D
    obtain ⟨d, dOld, fl, c⟩ := D
    obtain ⟨k, x', e, st, hstep⟩ := hs.step_ok f x t0 d (some (f t0 x))
    have hstep' : solver.step (pureField f) x t0 d (some (f t0 x)) args = .ok (.four k x' e st) := hstep
    simp only [bind, Except.bind, hstep', StepOut.unpack4, pure, Except.pure, hev _ _ (h _ _)]

/-- The stochastic events of m2c_hybrid_odeint.ipynb for a batch of `n` states: `λ - self.s >= 0` with one clock `λ` and one
threshold per element; here the jump restarts the clocks. -/
noncomputable def clockBatch (n : ℕ) (s : Fin n → ℝ) : BatchCallback ℝ (Fin n × Fin 2 → ℝ) :=
  open Classical in
  { checkEvent := fun _ x => (List.finRange n).map (fun i => decide (0 ≤ x (i, 1) - s i))
    jumpMap := fun _ x p => if p.2 = 1 then 0 else x p }

/-- Any batch of two or more states: the call raises although no threshold is ever reached. -/
example (n : ℕ) (hn : n ≠ 1) (fuel : ℕ) (hf : 0 < fuel) (jumpFirst : Bool) :
    odeintHybridBatch fuel (pureField fun _ x => x) (fun _ => 0) [0, 1] 3
      (dopri5Solver (Except PyErr) ℝ (Fin n × Fin 2 → ℝ) Unit) [clockBatch n fun _ => 1] (1 / 1000) (1 / 1000) (1 / 10000)
      jumpFirst Finset.univ () = .error .runtimeError :=
  (C150_batch_refuted [clockBatch n fun _ => 1] (fun _ => 0) 0 1 [1] rfl _ _ _ _ _ ()).2
    (fun t y => ⟨_, List.mem_singleton.2 rfl, by simpa [clockBatch] using hn⟩) (dopri5_fsalSolver ()) one_pos fuel _ 3 jumpFirst
    (by norm_num) hf

/-- A batch of one state: the call is that of `odeintHybrid`. -/
example (fuel : ℕ) (jumpFirst : Bool) :
    odeintHybridBatch fuel (pureField fun _ x => x) (fun _ => 1) [0, 1] 3
      (dopri5Solver (Except PyErr) ℝ (Fin 1 × Fin 2 → ℝ) Unit) [clockBatch 1 fun _ => 2] (1 / 1000) (1 / 1000) (1 / 10000)
      jumpFirst Finset.univ () =
    odeintHybrid fuel (pureField fun _ x => x) (fun _ => 1) [0, 1] 3
      (dopri5Solver (Except PyErr) ℝ (Fin 1 × Fin 2 → ℝ) Unit)
      [{ checkEvent := fun _ x => open Classical in decide (0 ≤ x (0, 1) - 2)
         jumpMap := fun _ x p => if p.2 = 1 then 0 else x p }] (1 / 1000) (1 / 1000) (1 / 10000)
      jumpFirst Finset.univ () :=
  C150_single_partial [clockBatch 1 fun _ => 2] (by intro cb h t x; rw [List.mem_singleton.1 h]; simp [clockBatch]) fuel _ _ _ _ _
    _ _ _ _ _ _

end Torchdyn
