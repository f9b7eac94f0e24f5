import Verif.Model.DictState
import Verif.Props.FixedStep

/-!
C71: dictionary states.
-/

namespace Torchdyn

open Spec

variable {V : Type}

/-- The value under a key: the first item with that key (keys are distinct in the statements below). -/
def lookupKey (d : List (String × V)) (k : String) : Option V := (d.find? (fun p => p.1 == k)).map Prod.snd

private theorem dictGet_of_lookup {d : DictState V} {k : String} {v : V} (h : lookupKey d k = some v) :
    dictGet d k = .ok v := by
  unfold lookupKey at h
  unfold dictGet
  cases hf : d.find? (fun p => p.1 == k) with
  | none => rw [hf] at h; cases h
  | some p => rw [hf] at h; simp at h; simp [h]

private theorem lookup_isSome {d : DictState V} {k : String} (h : k ∈ d.map Prod.fst) : ∃ v, lookupKey d k = some v := by
  obtain ⟨p, hp, rfl⟩ := List.mem_map.mp h
  unfold lookupKey
  cases hf : d.find? (fun q => q.1 == p.1) with
  | none => rw [List.find?_eq_none] at hf; exact absurd (by simp) (hf p hp)
  | some q => exact ⟨q.2, rfl⟩

/-- Appending the values under `k` changes exactly the list under `k`. -/
private def appendVals (out : DictState (List V)) (k : String) (vs : List V) : DictState (List V) :=
  out.map (fun p => if p.1 == k then (p.1, p.2 ++ vs) else p)

private theorem appendVals_keys (out : DictState (List V)) (k : String) (vs : List V) :
    (appendVals out k vs).map Prod.fst = out.map Prod.fst := by
  simp only [appendVals, List.map_map]
  refine List.map_congr_left fun p _ => ?_
  simp only [Function.comp]
  split <;> rfl

private theorem appendVals_append (out : DictState (List V)) (k : String) (vs ws : List V) :
    appendVals (appendVals out k vs) k ws = appendVals out k (vs ++ ws) := by
  simp only [appendVals, List.map_map]
  refine List.map_congr_left fun p _ => ?_
  simp only [Function.comp]
  by_cases h : (p.1 == k) = true <;> simp [h]

private theorem appendVals_nil (out : DictState (List V)) (k : String) : appendVals out k [] = out := by
  simp [appendVals]

private theorem appendAt_eq (out : DictState (List V)) (k : String) (v : V) (hk : k ∈ out.map Prod.fst) :
    appendAt out k v = .ok (appendVals out k [v]) := by
  obtain ⟨w, hw⟩ := lookup_isSome hk
  simp [appendAt, dictGet_of_lookup hw, bind, Except.bind, pure, Except.pure, appendVals]

private theorem appendKey_eq (k : String) (xs : List (DictState V)) (g : DictState V → V)
    (hg : ∀ x ∈ xs, lookupKey x k = some (g x)) : ∀ out : DictState (List V), k ∈ out.map Prod.fst →
    appendKey k xs out = .ok (appendVals out k (xs.map g)) := by
  induction xs with
  | nil => intro out _; simp [appendKey, appendVals_nil, pure, Except.pure]
  | cons x xs ih =>
    intro out hk
    simp only [appendKey, dictGet_of_lookup (hg x (by simp)), appendAt_eq out k _ hk, bind, Except.bind]
    rw [ih (fun y hy => hg y (by simp [hy])) _ (by rw [appendVals_keys]; exact hk), appendVals_append]
    rfl

private theorem appendKeys_eq (xs : List (DictState V)) (g : String → DictState V → V) : ∀ (ks : List String)
    (out : DictState (List V)), ks.Nodup → (∀ k ∈ ks, k ∈ out.map Prod.fst) →
    (∀ k ∈ ks, ∀ x ∈ xs, lookupKey x k = some (g k x)) →
    appendKeys xs ks out = .ok (out.map (fun p => if p.1 ∈ ks then (p.1, p.2 ++ xs.map (g p.1)) else p))
  | [], out, _, _, _ => by simp [appendKeys, pure, Except.pure]
  | k :: ks, out, hn, hk, hg => by
    obtain ⟨hkn, hn⟩ := List.nodup_cons.mp hn
    simp only [appendKeys, appendKey_eq k xs (g k) (hg k (by simp)) out (hk k (by simp)), bind, Except.bind]
    rw [appendKeys_eq xs g ks _ hn (by intro k' hk'; rw [appendVals_keys]; exact hk k' (by simp [hk']))
      (fun k' hk' => hg k' (by simp [hk']))]
    congr 1
    simp only [appendVals, List.map_map]
    refine List.map_congr_left fun p _ => ?_
    simp only [Function.comp]
    by_cases h : p.1 = k
    · subst h; simp [hkn]
    · simp [h]

/-- **C71**, the stacking: when the keys of every saved state are those of the last state computed (in any order), the output
has the keys of the first saved state, and maps every key to the list of the values under that key, in the order of the saved
states. -/
theorem C71_stack (xLast x0 : DictState V) (sol : List (DictState V)) (hn : (xLast.map Prod.fst).Nodup)
    (hn0 : (x0.map Prod.fst).Nodup) (hkeys : ∀ x ∈ x0 :: sol, ∀ k, k ∈ x.map Prod.fst ↔ k ∈ xLast.map Prod.fst) :
    ∃ out, dictStack xLast (x0 :: sol) = .ok out ∧ out.map Prod.fst = x0.map Prod.fst ∧
      ∀ k ∈ x0.map Prod.fst, ∃ vs, lookupKey out k = some vs ∧ vs.length = sol.length + 1 ∧
        ∀ (i : Nat) (x : DictState V), (x0 :: sol)[i]? = some x → vs[i]? = lookupKey x k := by
  classical
  have hex : ∀ (k : String) (x : DictState V), ∃ v : Option V, lookupKey x k = v := fun k x => ⟨_, rfl⟩
  by_cases hempty : x0 = []
  · subst hempty
    have hl : xLast = [] := by
      cases xLast with
      | nil => rfl
      | cons p xs => exact absurd ((hkeys [] (by simp) p.1).mpr (by simp)) (by simp)
    subst hl
    exact ⟨[], rfl, rfl, by simp⟩
  · obtain ⟨p0, x0', rfl⟩ := List.exists_cons_of_ne_nil hempty
    let g : String → DictState V → V := fun k x => (lookupKey x k).getD p0.2
    have hg : ∀ k, k ∈ xLast.map Prod.fst → ∀ x ∈ (p0 :: x0') :: sol, lookupKey x k = some (g k x) := by
      intro k hk x hx
      obtain ⟨v, hv⟩ := lookup_isSome ((hkeys x hx k).mpr hk)
      simp [g, hv]
    have hmem : ∀ k, k ∈ (p0 :: x0').map Prod.fst ↔ k ∈ xLast.map Prod.fst := hkeys _ (by simp)
    have hout : dictStack xLast ((p0 :: x0') :: sol) = .ok ((p0 :: x0').map (fun p => (p.1, p.2 :: sol.map (g p.1)))) := by
      simp only [dictStack, getItem, List.getElem?_cons_zero, pure_bind, List.drop_succ_cons, List.drop_zero]
      rw [appendKeys_eq sol g _ _ hn (by
          intro k hk; rw [List.map_map]; exact (hmem k).mpr hk)
        (fun k hk x hx => hg k hk x (by simp [hx]))]
      congr 1
      rw [List.map_map]
      refine List.map_congr_left fun p hp => ?_
      simp only [Function.comp]
      rw [if_pos ((hmem p.1).mp (List.mem_map.mpr ⟨p, hp, rfl⟩))]
      rfl
    refine ⟨_, hout, by rw [List.map_map]; rfl, fun k hk => ?_⟩
    obtain ⟨v, hv⟩ := lookup_isSome hk
    have hlook : lookupKey ((p0 :: x0').map (fun p => (p.1, p.2 :: sol.map (g p.1)))) k = some (v :: sol.map (g k)) := by
      unfold lookupKey at hv ⊢
      rw [List.find?_map]
      cases hf : (p0 :: x0').find? (fun p => p.1 == k) with
      | none => rw [hf] at hv; cases hv
      | some p =>
        rw [hf] at hv
        have hp : p.1 = k := by simpa using List.find?_some hf
        have hf' : List.find? ((fun p : String × List V => p.1 == k) ∘ fun p => (p.1, p.2 :: sol.map (g p.1))) (p0 :: x0') =
            some p := by simpa [Function.comp] using hf
        rw [hf']
        simp at hv
        simp [hv, hp]
    refine ⟨_, hlook, by simp, fun i x hx => ?_⟩
    cases i with
    | zero =>
      simp only [List.getElem?_cons_zero, Option.some.injEq] at hx ⊢
      subst hx
      exact hv.symm
    | succ i =>
      simp only [List.getElem?_cons_succ] at hx ⊢
      rw [List.getElem?_map, hx, Option.map_some]
      exact (hg k ((hmem k).mp hk) x (by simp [List.mem_of_getElem? hx])).symm

/-- Non-vacuity: two keys, three states, one of them with its items in another order. -/
example : dictStack [("v", 6), ("x", 5)] [[("x", 1), ("v", 2)], [("x", 3), ("v", 4)], [("v", 6), ("x", 5)]] =
    .ok [("x", [1, 3, 5]), ("v", [2, 4, 6])] := by decide

/-- C71, error branch: a key of the last state that is missing in the first saved one raises `KeyError`, when some other state
was saved. -/
theorem C71_missing_key (k : String) (v : V) (x0 x1 : DictState V) (sol : List (DictState V))
    (h : k ∉ x0.map Prod.fst) (xs : DictState V) : dictStack ((k, v) :: xs) (x0 :: x1 :: sol) = .error .keyError := by
  have h0 : ∀ (α : Type) (g : V → α), dictGet (x0.map (fun p => (p.1, g p.2))) k = .error .keyError := by
    intro α g
    unfold dictGet
    have : (x0.map (fun p => (p.1, g p.2))).find? (fun p => p.1 == k) = none := by
      rw [List.find?_eq_none]
      intro p hp
      obtain ⟨q, hq, rfl⟩ := List.mem_map.mp hp
      simp only [beq_iff_eq]
      intro e
      exact h (List.mem_map.mpr ⟨q, hq, e⟩)
    rw [this]
  have h1 := h0 (List V) (fun v => [v])
  simp only [dictStack, getItem, List.getElem?_cons_zero, List.map_cons, List.drop_succ_cons, List.drop_zero,
    appendKeys, appendKey, appendAt, bind, Except.bind, pure, Except.pure]
  cases hx : dictGet x1 k with
  | ok w => simp only [h1]
  | error e =>
    simp only []
    unfold dictGet at hx
    split at hx
    · cases hx
    · simpa using hx.symm

section

variable {K : Type} [Field K]

private theorem fixedLoopLast_eq {W : Type} (isclose : K → K → Bool) (step : W → K → K → Except PyErr (StepOut W))
    (tSpan saveAt : List K) : ∀ (fuel steps : Nat) (t dt : K) (x : W) (sol : List W),
    (fixedLoopLast isclose step tSpan saveAt fuel steps t dt x sol).map Prod.snd =
      fixedLoop isclose step tSpan saveAt fuel steps t dt x sol
  | 0, _, _, _, _, _ => rfl
  | fuel + 1, steps, t, dt, x, sol => by
    unfold fixedLoopLast fixedLoop
    by_cases h : steps ≤ tSpan.length - 1
    · simp only [if_pos h, bind, Except.bind]
      cases step x t dt with
      | error e => rfl
      | ok r =>
        simp only []
        cases r.unpack3 (m := Except PyErr) with
        | error e => rfl
        | ok q =>
          simp only []
          by_cases h2 : steps < tSpan.length - 1
          · simp only [if_pos h2]
            cases (getItem tSpan (steps + 1) : Except PyErr K) with
            | error e => rfl
            | ok tn => exact fixedLoopLast_eq isclose step tSpan saveAt fuel _ _ _ _ _
          · simp only [if_neg h2]
            exact fixedLoopLast_eq isclose step tSpan saveAt fuel _ _ _ _ _
    · simp only [if_neg h]; rfl

private theorem fixedLoopLast_inv {W : Type} (P : W → Prop) (isclose : K → K → Bool)
    (step : W → K → K → Except PyErr (StepOut W))
    (hstep : ∀ x t dt o k x' e, P x → step x t dt = .ok o → o.unpack3 (m := Except PyErr) = .ok (k, x', e) → P x')
    (tSpan saveAt : List K) : ∀ (fuel steps : Nat) (t dt : K) (x : W) (sol : List W) (xl : W) (sol' : List W),
    P x → (∀ y ∈ sol, P y) → fixedLoopLast isclose step tSpan saveAt fuel steps t dt x sol = .ok (xl, sol') →
    P xl ∧ ∀ y ∈ sol', P y
  | 0, _, _, _, x, sol, xl, sol', hx, hs, h => by
    simp only [fixedLoopLast, pure, Except.pure, Except.ok.injEq, Prod.mk.injEq] at h
    rw [← h.1, ← h.2]; exact ⟨hx, hs⟩
  | fuel + 1, steps, t, dt, x, sol, xl, sol', hx, hs, h => by
    unfold fixedLoopLast at h
    by_cases hc : steps ≤ tSpan.length - 1
    · simp only [if_pos hc, bind, Except.bind] at h
      cases hst : step x t dt with
      | error e => rw [hst] at h; cases h
      | ok r =>
        rw [hst] at h
        simp only [] at h
        cases hu : r.unpack3 (m := Except PyErr) with
        | error e => rw [hu] at h; cases h
        | ok q =>
          rw [hu] at h
          simp only [] at h
          have hq : P q.2.1 := hstep x t dt r q.1 q.2.1 q.2.2 hx hst hu
          have hs' : ∀ y ∈ (if closeCount isclose (t + dt) saveAt ≠ 0 then sol ++ [q.2.1] else sol), P y := by
            intro y hy
            split at hy
            · rcases List.mem_append.mp hy with hy | hy
              · exact hs y hy
              · simp at hy; rw [hy]; exact hq
            · exact hs y hy
          by_cases h2 : steps < tSpan.length - 1
          · simp only [if_pos h2] at h
            cases hg : (getItem tSpan (steps + 1) : Except PyErr K) with
            | error e => rw [hg] at h; cases h
            | ok tn =>
              rw [hg] at h
              exact fixedLoopLast_inv P isclose step hstep tSpan saveAt fuel _ _ _ _ _ xl sol' hq hs' h
          · simp only [if_neg h2] at h
            exact fixedLoopLast_inv P isclose step hstep tSpan saveAt fuel _ _ _ _ _ xl sol' hq hs' h
    · simp only [if_neg hc, pure, Except.pure, Except.ok.injEq, Prod.mk.injEq] at h
      rw [← h.1, ← h.2]; exact ⟨hx, hs⟩

/-- **C71.** For dictionary states and a stepper that keeps the set of keys, whatever the grid and `save_at`: if the run on
dictionaries, seen as opaque states, returns `(ts, sol)`, then `odeint` returns `ts` and a dictionary with the keys of the
initial state that maps every key to the stack over time of the values under that key; if it raises, `odeint` raises the
same. -/
theorem C71_run (isclose : K → K → Bool) (step : DictState V → K → K → Except PyErr (StepOut (DictState V)))
    (x : DictState V) (keys : List String)
    (hx : (x.map Prod.fst).Nodup ∧ ∀ k, k ∈ x.map Prod.fst ↔ k ∈ keys)
    (hstep : ∀ x t dt o k x' e, ((x.map Prod.fst).Nodup ∧ ∀ k, k ∈ x.map Prod.fst ↔ k ∈ keys) → step x t dt = .ok o →
      o.unpack3 (m := Except PyErr) = .ok (k, x', e) → (x'.map Prod.fst).Nodup ∧ ∀ k, k ∈ x'.map Prod.fst ↔ k ∈ keys)
    (tSpan saveAt : List K) :
    (∀ err, fixedOdeint isclose step x tSpan saveAt = .error err →
      fixedOdeintDict isclose step x tSpan saveAt = .error err) ∧
    ∀ ts sol, fixedOdeint isclose step x tSpan saveAt = .ok (ts, sol) →
      ∃ out, fixedOdeintDict isclose step x tSpan saveAt = .ok (ts, out) ∧ (out.map Prod.fst).Nodup ∧
        (∀ k, k ∈ out.map Prod.fst ↔ k ∈ keys) ∧
        ∀ k ∈ keys, ∃ vs, lookupKey out k = some vs ∧ vs.length = sol.length ∧
          ∀ (i : Nat) (y : DictState V), sol[i]? = some y → vs[i]? = lookupKey y k := by
  unfold fixedOdeint fixedOdeintDict
  generalize (if saveAt.length = 0 then tSpan else saveAt) = sv
  by_cases ha : (sv.all fun t => closeCount isclose t sv == 1) = true
  swap
  · simp only [if_neg ha]
    exact ⟨fun _ h => by cases h; rfl, fun _ _ h => by cases h⟩
  simp only [if_pos ha]
  cases h0 : (getItem tSpan 0 : Except PyErr K) with
  | error e => exact ⟨fun _ h => by cases h; rfl, fun _ _ h => by cases h⟩
  | ok t =>
  cases h1 : (getItem tSpan 1 : Except PyErr K) with
  | error e => exact ⟨fun _ h => by cases h; rfl, fun _ _ h => by cases h⟩
  | ok t1 =>
  simp only [bind, Except.bind]
  have hloop := fixedLoopLast_eq isclose step tSpan sv tSpan.length 1 t (t1 - t) x
    (if closeCount isclose t sv ≠ 0 then [x] else [])
  cases hl : fixedLoopLast isclose step tSpan sv tSpan.length 1 t (t1 - t) x
    (if closeCount isclose t sv ≠ 0 then [x] else []) with
  | error e =>
    rw [hl] at hloop
    rw [← hloop]
    exact ⟨fun _ h => by cases h; rfl, fun _ _ h => by cases h⟩
  | ok r =>
    rw [hl] at hloop
    rw [← hloop]
    obtain ⟨xl, sol⟩ := r
    have hinv := fixedLoopLast_inv (fun x : DictState V => (x.map Prod.fst).Nodup ∧ ∀ k, k ∈ x.map Prod.fst ↔ k ∈ keys)
      isclose step hstep tSpan sv _ _ _ _ x _ xl sol hx (by intro y hy; split at hy <;> simp at hy; rw [hy]; exact hx) hl
    simp only [Except.map]
    cases sol with
    | nil =>
      simp only [dictStack, getItem]
      exact ⟨fun _ h => by cases h; rfl, fun _ _ h => by cases h⟩
    | cons x0 sol =>
      have hx0 := hinv.2 x0 (by simp)
      obtain ⟨out, ho, hk, hv⟩ := C71_stack xl x0 sol hinv.1.1 hx0.1
        (fun y hy k => ((hinv.2 y hy).2 k).trans (hinv.1.2 k).symm)
      rw [ho]
      refine ⟨fun _ h => (by cases h), fun ts sol' h => ?_⟩
      simp only [getItem, List.getElem?_cons_zero, pure, Except.pure, Except.ok.injEq, Prod.mk.injEq] at h
      obtain ⟨rfl, rfl⟩ := h
      refine ⟨out, rfl, by rw [hk]; exact hx0.1, by rw [hk]; exact hx0.2, fun k hkk => ?_⟩
      obtain ⟨vs, h1, h2, h3⟩ := hv k ((hx0.2 k).mpr hkk)
      exact ⟨vs, h1, by simpa using h2, h3⟩

end

/-- Non-vacuity: a stepper that moves `x` by `v` and keeps `v`, on three points. -/
example : fixedOdeintDict (K := ℚ) torchIsclose
    (fun d _ dt => .ok (.three none (d.map (fun p => if p.1 = "x" then (p.1, p.2 + dt * 2) else p)) none))
    [("x", (0 : ℚ)), ("v", 2)] [0, 1, 3] [] = .ok ([0, 1, 3], [("x", [0, 2, 6]), ("v", [2, 2, 2])]) := by decide +kernel

end Torchdyn
