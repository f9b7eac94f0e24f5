import Verif.Model.ProblemSetup
import Verif.Model.Precision
import Mathlib.Data.List.Basic
import Mathlib.Tactic.Linarith

/-!
C122: the settings of the backward pass. C123: the parameters with respect to which gradients are computed.
-/

set_option linter.unusedSimpArgs false

namespace Torchdyn

/-! ### C122 -/

section settings

variable {S K : Type}

/-- The documented meaning of `solver_adjoint`, `atol_adjoint`, `rtol_adjoint` and `seminorm`: the solver of the backward pass is
`solver_adjoint`, by default the solver of the problem, its tolerances are the adjoint ones, and the entries of the parameters are
left out of the error norm if and only if `seminorm` is set. -/
def DocumentedBackward (byName : String → Except PyErr S) (a : ProblemArgs S K) (nx nlam : ℕ) (c : SolveCall S K) : Prop :=
  (match a.solverAdjoint.getD a.solver with
    | .inl n => byName n
    | .inr s => .ok s) = .ok c.solver ∧
  c.atol = a.atolAdjoint ∧ c.rtol = a.rtolAdjoint ∧ (c.seminorm = if a.seminorm then some (nx + nlam) else none)

/-- **C122 (construction).** The constructor succeeds exactly when the names it is given are known and `solver_adjoint` is not an
object; the forward pass uses the solver and the tolerances of the problem. -/
theorem C122_forward (byName : String → Except PyErr S) (a : ProblemArgs S K) :
    ((∃ p, problemInit byName a = .ok p) ↔
      (∀ n, a.solver = .inl n → ∃ s, byName n = .ok s) ∧
      (∀ n, a.solverAdjoint = some (.inl n) → ∃ s, byName n = .ok s) ∧ ∀ s, a.solverAdjoint ≠ some (.inr s)) ∧
    ∀ p, problemInit byName a = .ok p →
      (match a.solver with | .inl n => byName n | .inr s => .ok s) = .ok p.forwardCall.solver ∧
      p.forwardCall.atol = a.atol ∧ p.forwardCall.rtol = a.rtol := by
  obtain ⟨solver, atol, rtol, sens, adj, aa, ra, sn⟩ := a
  rcases solver with n | s
  · rcases hn : byName n with e | s
    · refine ⟨⟨?_, ?_⟩, ?_⟩
      · rintro ⟨p, hp⟩
        simp [problemInit, hn, bind, Except.bind] at hp
      · rintro ⟨h, -⟩
        obtain ⟨s, hs⟩ := h n rfl
        rw [hn] at hs
        cases hs
      · intro p hp
        simp [problemInit, hn, bind, Except.bind] at hp
    · rcases adj with _ | (m | o)
      · simp [problemInit, hn, bind, Except.bind, pure, Except.pure, ProblemAttrs.forwardCall]
      · rcases hm : byName m with e | u <;>
          simp [problemInit, hn, hm, bind, Except.bind, pure, Except.pure, ProblemAttrs.forwardCall]
      · simp [problemInit, hn, bind, Except.bind, pure, Except.pure, throw, throwThe, MonadExceptOf.throw]
  · rcases adj with _ | (m | o)
    · simp [problemInit, bind, Except.bind, pure, Except.pure, ProblemAttrs.forwardCall]
    · rcases hm : byName m with e | u <;>
        simp [problemInit, hm, bind, Except.bind, pure, Except.pure, ProblemAttrs.forwardCall]
    · simp [problemInit, bind, Except.bind, pure, Except.pure, throw, throwThe, MonadExceptOf.throw]

/-- **C122 (`solver_adjoint` as an object) is false of the code**: the documented solver object raises `KeyError`. -/
theorem C122_object_refuted (byName : String → Except PyErr S) (a : ProblemArgs S K) (s o : S) (hs : a.solver = .inr s)
    (ho : a.solverAdjoint = some (.inr o)) : problemInit byName a = .error .keyError := by
  simp [problemInit, hs, ho, bind, Except.bind, pure, Except.pure, throw, throwThe, MonadExceptOf.throw]

theorem problemInit_ok {byName : String → Except PyErr S} {a : ProblemArgs S K} {p : ProblemAttrs S K}
    (h : problemInit byName a = .ok p) :
    (match a.solver with | .inl n => byName n | .inr s => .ok s) = .ok p.solver ∧
    (match a.solverAdjoint.getD a.solver with | .inl n => byName n | .inr s => .ok s) = .ok p.solverAdjoint ∧
    p.atol = a.atol ∧ p.rtol = a.rtol ∧ p.atolAdjoint = a.atolAdjoint ∧ p.rtolAdjoint = a.rtolAdjoint ∧ p.sensalg = a.sensitivity := by
  obtain ⟨solver, atol, rtol, sens, adj, aa, ra, sn⟩ := a
  rcases solver with n | s <;> rcases adj with _ | (m | o)
  · rcases hn : byName n with e | s <;> simp [problemInit, hn, bind, Except.bind, pure, Except.pure] at h
    subst h
    simp [hn]
  · rcases hn : byName n with e | s
    · simp [problemInit, hn, bind, Except.bind] at h
    · rcases hm : byName m with e | u <;> simp [problemInit, hn, hm, bind, Except.bind, pure, Except.pure] at h
      subst h
      simp [hn, hm]
  · rcases hn : byName n with e | s <;>
      simp [problemInit, hn, bind, Except.bind, pure, Except.pure, throw, throwThe, MonadExceptOf.throw] at h
  · simp [problemInit, bind, Except.bind, pure, Except.pure] at h
    subst h
    simp
  · rcases hm : byName m with e | u <;> simp [problemInit, hm, bind, Except.bind, pure, Except.pure] at h
    subst h
    simp [hm]
  · simp [problemInit, bind, Except.bind, pure, Except.pure, throw, throwThe, MonadExceptOf.throw] at h

/-- **C122 (`sensitivity="adjoint"`), what holds.** The backward pass makes one kind of call, and its settings are the documented
ones if and only if `seminorm=True`. -/
theorem C122_adjoint_partial (byName : String → Except PyErr S) (a : ProblemArgs S K) (ha : a.sensitivity = "adjoint")
    (p : ProblemAttrs S K) (hp : problemInit byName a = .ok p) (nx nlam : ℕ) :
    ∃ c, p.backwardCall nx nlam = .ok (some c) ∧ (DocumentedBackward byName a nx nlam c ↔ a.seminorm = true) := by
  obtain ⟨-, h2, -, -, h5, h6, h7⟩ := problemInit_ok hp
  refine ⟨⟨p.solverAdjoint, p.atolAdjoint, p.rtolAdjoint, some (nx + nlam)⟩, ?_, ?_⟩
  · simp [ProblemAttrs.backwardCall, h7, ha, pure, Except.pure]
  · unfold DocumentedBackward
    rw [h2, h5, h6]
    cases a.seminorm <;> simp

/-- **C122 (`sensitivity="interpolated_adjoint"`) is false of the code**: the adjoint solver and tolerances are ignored: the
settings are the documented ones only if the adjoint ones happen to be those of the forward pass. -/
theorem C122_interpolated_refuted (byName : String → Except PyErr S) (a : ProblemArgs S K) (ha : a.sensitivity = "interpolated_adjoint")
    (p : ProblemAttrs S K) (hp : problemInit byName a = .ok p) (nx nlam : ℕ) :
    ∃ c, p.backwardCall nx nlam = .ok (some c) ∧
      (DocumentedBackward byName a nx nlam c ↔
        p.solverAdjoint = p.solver ∧ a.atolAdjoint = a.atol ∧ a.rtolAdjoint = a.rtol ∧ a.seminorm = false) := by
  obtain ⟨-, h2, h3, h4, -, -, h7⟩ := problemInit_ok hp
  refine ⟨⟨p.solver, p.atol, p.rtol, none⟩, ?_, ?_⟩
  · simp [ProblemAttrs.backwardCall, h7, ha, pure, Except.pure]
  · unfold DocumentedBackward
    rw [h2, h3, h4]
    simp only [Except.ok.injEq]
    refine and_congr Iff.rfl (and_congr eq_comm (and_congr eq_comm ?_))
    cases a.seminorm <;> simp

/-- **C122 (other sensitivities).** `"autograd"` makes no call in the backward pass, and any other name raises `TypeError`. -/
theorem C122_other (byName : String → Except PyErr S) (a : ProblemArgs S K) (p : ProblemAttrs S K)
    (hp : problemInit byName a = .ok p) (nx nlam : ℕ) :
    (p.backwardCall nx nlam = .ok none ↔ a.sensitivity = "autograd") ∧
    (p.backwardCall nx nlam = .error .typeError ↔
      a.sensitivity ≠ "autograd" ∧ a.sensitivity ≠ "adjoint" ∧ a.sensitivity ≠ "interpolated_adjoint") := by
  obtain ⟨-, -, -, -, -, -, h7⟩ := problemInit_ok hp
  unfold ProblemAttrs.backwardCall
  rw [h7]
  split_ifs with h1 h2 h3 <;> simp [h1, pure, Except.pure, throw, throwThe, MonadExceptOf.throw, *]

/-- Non-vacuity: the default arguments of `NeuralODE` with `sensitivity="adjoint"`, and the two refuted cases. -/
example : problemInit (K := ℚ) (fun n => strToObject n)
    ⟨.inl "tsit5", 1 / 1000, 1 / 1000, "adjoint", none, 1 / 10000, 1 / 10000, false⟩ =
    .ok ⟨SolverClass.new .tsitouras45 .float32, 1 / 1000, 1 / 1000, SolverClass.new .tsitouras45 .float32, 1 / 10000, 1 / 10000,
      "adjoint"⟩ := rfl

end settings

/-! ### C123 -/

section params

variable {C : Type}

theorem parametersOf_eq_nil {named : NamedParams C} : parametersOf named = [] ↔ named = [] := by
  cases named with
  | nil => simp [parametersOf]
  | cons e l => simp [parametersOf]

theorem mem_parametersOf_id (named : NamedParams C) (i : ℕ) :
    (∃ p ∈ parametersOf named, p.id = i) ↔ ∃ e ∈ named, e.2.id = i := by
  induction named with
  | nil => simp [parametersOf]
  | cons e l ih =>
    obtain ⟨n, p⟩ := e
    constructor
    · rintro ⟨q, hq, rfl⟩
      rcases List.mem_cons.1 hq with rfl | hq
      · exact ⟨(n, q), by simp, rfl⟩
      · obtain ⟨e, he, h⟩ := ih.1 ⟨q, (List.mem_filter.1 hq).1, rfl⟩
        exact ⟨e, List.mem_cons_of_mem _ he, h⟩
    · rintro ⟨e, he, rfl⟩
      by_cases h : e.2.id = p.id
      · exact ⟨p, by simp [parametersOf], h.symm⟩
      · rcases List.mem_cons.1 he with rfl | he
        · exact absurd rfl h
        · obtain ⟨q, hq, hqe⟩ := ih.2 ⟨e, he, rfl⟩
          refine ⟨q, List.mem_cons_of_mem _ (List.mem_filter.2 ⟨hq, ?_⟩), hqe⟩
          simpa [hqe] using h

theorem parametersOf_distinct (named : NamedParams C) (h : (named.map fun e => e.2.id).Nodup) :
    parametersOf named = named.map (·.2) := by
  induction named with
  | nil => rfl
  | cons e l ih =>
    obtain ⟨n, p⟩ := e
    simp only [List.map_cons, List.nodup_cons] at h
    rw [parametersOf, ih h.2, List.map_cons]
    congr 1
    refine List.filter_eq_self.2 fun q hq => ?_
    obtain ⟨e, he, rfl⟩ := List.mem_map.1 hq
    have : e.2.id ≠ p.id := fun hc => h.1 (List.mem_map.2 ⟨e, he, hc⟩)
    simpa using this

theorem optName_injective {i j : ℕ} (h : optName i = optName j) : i = j := by
  unfold optName at h
  have h1 := congrArg String.toList h
  rw [String.toList_append, String.toList_append] at h1
  have h2 := List.append_cancel_left h1
  rw [Nat.toList_repr, Nat.toList_repr] at h2
  rw [← Nat.ofDigitChars_ten_toDigits (n := i), h2, Nat.ofDigitChars_ten_toDigits]

/-- The names of the registered parameters, from the number `k` on. -/
def namedFrom (k : ℕ) : List (ParamObj C) → NamedParams C
  | [] => []
  | p :: ps => (optName k, p) :: namedFrom (k + 1) ps

theorem namedFrom_snd (k : ℕ) (ps : List (ParamObj C)) : (namedFrom k ps).map (·.2) = ps := by
  induction ps generalizing k with
  | nil => rfl
  | cons p ps ih => simp [namedFrom, ih]

theorem registerAll_ok (ps : List (ParamObj C)) (named : NamedParams C) (k : ℕ) (hn : ∀ e ∈ named, ∀ j, k ≤ j → e.1 ≠ optName j)
    (hp : ∀ p ∈ ps, p.isParameter = true) : registerAll named k ps = .ok (named ++ namedFrom k ps) := by
  induction ps generalizing named k with
  | nil => simp [registerAll, namedFrom, pure, Except.pure]
  | cons p ps ih =>
    have h1 : named.any (fun e => e.1 == optName k) = false := by
      rw [List.any_eq_false]
      intro e he
      simpa using hn e he k le_rfl
    have h2 : registerParameter named (optName k) p = .ok (named ++ [(optName k, p)]) := by
      simp [registerParameter, hp p (by simp), h1, pure, Except.pure]
    rw [registerAll, h2]
    show registerAll (named ++ [(optName k, p)]) (k + 1) ps = _
    rw [ih _ _ _ fun q hq => hp q (List.mem_cons_of_mem _ hq)]
    · simp [namedFrom]
    · intro e he j hj
      rcases List.mem_append.1 he with he | he
      · exact hn e he j (by omega)
      · rw [List.mem_singleton.1 he]
        intro hc
        have := optName_injective hc
        omega

/-- **C123 (fields without parameters).** Gradients are computed for the `optimizable_params`, in their order, if the field has no
parameters of its own. -/
theorem C123_optimizable_partial (fresh : ParamObj C) (ps : List (ParamObj C)) (hps : ps ≠ []) (hp : ∀ p ∈ ps, p.isParameter = true)
    (hd : (ps.map (·.id)).Nodup) :
    ∃ named, problemParams fresh [] ps = .ok named ∧ parametersOf named = ps ∧ flatParams named = (ps.map (·.value)).flatten := by
  have h0 : 0 < ps.length := List.length_pos_iff.2 hps
  have hnd : parametersOf (namedFrom 0 ps) = ps := by
    rw [parametersOf_distinct, namedFrom_snd]
    rw [show (fun e : String × ParamObj C => e.2.id) = (fun p : ParamObj C => p.id) ∘ fun e => e.2 from rfl, ← List.map_map,
      namedFrom_snd]
    exact hd
  refine ⟨namedFrom 0 ps, ?_, hnd, by rw [flatParams, hnd]⟩
  simp [problemParams, parametersOf, h0, registerAll_ok ps [] 0 (by simp) hp]

/-- Anything but an `nn.Parameter` among the `optimizable_params` of a field without parameters raises `TypeError`. -/
theorem C123_not_parameter (fresh : ParamObj C) (ps qs : List (ParamObj C)) (p : ParamObj C) (hp : ∀ p ∈ ps, p.isParameter = true)
    (h : p.isParameter = false) : problemParams fresh [] (ps ++ p :: qs) = .error .typeError := by
  have key : ∀ (ps : List (ParamObj C)) (named : NamedParams C) (k : ℕ), (∀ p ∈ ps, p.isParameter = true) →
      registerAll named k (ps ++ p :: qs) = .error .typeError := by
    intro ps
    induction ps with
    | nil =>
      intro named k _
      simp [registerAll, registerParameter, h, bind, Except.bind, throw, throwThe, MonadExceptOf.throw]
    | cons q ps ih =>
      intro named k hq
      rw [List.cons_append, registerAll]
      have : ∃ n', registerParameter named (optName k) q = .ok n' := by
        unfold registerParameter
        rw [hq q (by simp)]
        split_ifs with h1 h2
        · simp at h1
        · exact ⟨_, rfl⟩
        · exact ⟨_, rfl⟩
      obtain ⟨n', hn'⟩ := this
      rw [hn']
      exact ih n' (k + 1) fun r hr => hq r (List.mem_cons_of_mem _ hr)
  simp [problemParams, parametersOf, key ps [] 0 hp]

/-- **C123 (fields with parameters).** The parameters of the field are kept as they are. -/
theorem C123_own (fresh : ParamObj C) (named : NamedParams C) (hn : named ≠ []) (ps : List (ParamObj C)) :
    problemParams fresh named ps = .ok named := by
  have : 0 < (parametersOf named).length := List.length_pos_iff.2 fun h => hn (parametersOf_eq_nil.1 h)
  simp [problemParams, this, pure, Except.pure]

/-- **C123 is false of the code**: if the field has a parameter of its own, no gradient is computed for any of the
`optimizable_params` that is not already one of its parameters; the list is ignored without a message. -/
theorem C123_optimizable_refuted (fresh : ParamObj C) (named : NamedParams C) (hn : named ≠ []) (ps : List (ParamObj C))
    (p : ParamObj C) (_hp : p ∈ ps) (hnew : ∀ e ∈ named, e.2.id ≠ p.id) :
    ∃ named', problemParams fresh named ps = .ok named' ∧ ∀ q ∈ parametersOf named', q.id ≠ p.id := by
  refine ⟨named, C123_own fresh named hn ps, fun q hq hc => ?_⟩
  obtain ⟨e, he, h⟩ := (mem_parametersOf_id named p.id).1 ⟨q, hq, hc⟩
  exact hnew e he h

/-- **C123 is false of the code (history)**: a problem without `optimizable_params` leaves a dummy parameter on a module without
parameters, and so a second problem built on the same module ignores the `optimizable_params` it is given. -/
theorem C123_second_problem_refuted (fresh fresh' : ParamObj C) (hf : fresh.isParameter = true) (ps : List (ParamObj C))
    (p : ParamObj C) (hp : p ∈ ps) (hnew : fresh.id ≠ p.id) :
    ∃ named named', problemParams fresh [] [] = .ok named ∧ problemParams fresh' named ps = .ok named' ∧
      ∀ q ∈ parametersOf named', q.id ≠ p.id := by
  have h1 : problemParams fresh [] [] = .ok [("dummy_parameter", fresh)] := by
    simp [problemParams, parametersOf, registerParameter, hf, pure, Except.pure]
  obtain ⟨named', h2, h3⟩ := C123_optimizable_refuted fresh' [("dummy_parameter", fresh)] (by simp) ps p hp
    (by intro e he; rw [List.mem_singleton.1 he]; exact hnew)
  exact ⟨_, named', h1, h2, h3⟩

theorem splitGrad_flatten (ps : List (ParamObj C)) (g : ParamObj C → List C) (h : ∀ p ∈ ps, (g p).length = p.value.length) :
    splitGrad ps (ps.map g).flatten = .ok (ps.map fun p => (p, g p)) := by
  induction ps with
  | nil => rfl
  | cons p ps ih =>
    have h1 := h p (by simp)
    rw [List.map_cons, List.flatten_cons, splitGrad]
    have h2 : ¬ (g p ++ (ps.map g).flatten).length < p.value.length := by simp [h1]
    rw [if_neg h2, ← h1, List.drop_left, List.take_left, ih fun q hq => h q (List.mem_cons_of_mem _ hq)]
    rfl

/-- **C123 (who receives what).** If no parameter is frozen and the field depends on all of them, the adjoint method gives every
parameter its own vector-Jacobian product. -/
theorem C123_gradients_partial [Zero C] (named : NamedParams C) (vjp : ParamObj C → Option (List C)) (g : ParamObj C → List C)
    (hg : ∀ p ∈ parametersOf named, p.requiresGrad = true ∧ vjp p = some (g p) ∧ (g p).length = p.value.length) :
    (paramGrad vjp named).bind (splitGrad (parametersOf named)) = .ok ((parametersOf named).map fun p => (p, g p)) := by
  have h1 : (parametersOf named).any (fun p => !p.requiresGrad) = false := by
    rw [List.any_eq_false]
    intro p hp
    simp [(hg p hp).1]
  have h2 : (parametersOf named).map (fun p => (vjp p).getD [0]) = (parametersOf named).map g :=
    List.map_congr_left fun p hp => by rw [(hg p hp).2.1]; rfl
  unfold paramGrad
  rw [h1, h2]
  exact splitGrad_flatten _ g fun p hp => (hg p hp).2.2

/-- **C123 is false of the code (frozen parameters)**: with one parameter frozen (`requires_grad=False`) the backward pass of the
adjoint methods raises `RuntimeError`; the gradients of the other parameters are not computed. -/
theorem C123_frozen_refuted [Zero C] (named : NamedParams C) (vjp : ParamObj C → Option (List C)) (p : ParamObj C)
    (hp : p ∈ parametersOf named) (hf : p.requiresGrad = false) : paramGrad vjp named = .error .runtimeError := by
  have : (parametersOf named).any (fun p => !p.requiresGrad) = true := List.any_eq_true.2 ⟨p, hp, by simp [hf]⟩
  unfold paramGrad
  rw [this]
  rfl

theorem splitGrad_length (ps : List (ParamObj C)) (v : List C) (r : List (ParamObj C × List C)) (h : splitGrad ps v = .ok r) :
    v.length = (ps.map fun p => p.value.length).sum := by
  induction ps generalizing v r with
  | nil =>
    cases v with
    | nil => rfl
    | cons a v => cases h
  | cons p ps ih =>
    rw [splitGrad] at h
    split_ifs at h with h1
    · rcases hr : splitGrad ps (v.drop p.value.length) with e | r'
      · rw [hr] at h; cases h
      · have := ih _ _ hr
        rw [List.length_drop] at this
        simp only [List.map_cons, List.sum_cons]
        omega

/-- **C123 is false of the code (unused parameters)**: one parameter on which the field does not depend and which has more or less
than one entry makes the backward pass raise, if the field depends on all the others. -/
theorem C123_unused_refuted [Zero C] (before after : List (ParamObj C)) (p : ParamObj C) (named : NamedParams C)
    (hpar : parametersOf named = before ++ p :: after) (vjp : ParamObj C → Option (List C)) (hp : vjp p = none)
    (hlen : p.value.length ≠ 1) (hothers : ∀ q ∈ before ++ after, ∃ g, vjp q = some g ∧ g.length = q.value.length) :
    ∃ e, (paramGrad vjp named).bind (splitGrad (parametersOf named)) = .error e := by
  rcases hr : (paramGrad vjp named).bind (splitGrad (parametersOf named)) with e | r
  · exact ⟨e, rfl⟩
  · exfalso
    unfold paramGrad at hr
    split_ifs at hr
    · cases hr
    · have h1 := splitGrad_length _ _ _ (show splitGrad _ _ = .ok r from hr)
      rw [hpar] at h1
      have hq : ∀ l : List (ParamObj C), (∀ q ∈ l, ∃ g, vjp q = some g ∧ g.length = q.value.length) →
          ((l.map fun q => (vjp q).getD [0]).flatten).length = (l.map fun q => q.value.length).sum := by
        intro l hl
        rw [List.length_flatten, List.map_map]
        congr 1
        refine List.map_congr_left fun q hq => ?_
        obtain ⟨g, hg, hgl⟩ := hl q hq
        simp [hg, hgl]
      have hb := hq before fun q h => hothers q (List.mem_append_left _ h)
      have ha := hq after fun q h => hothers q (List.mem_append_right _ h)
      simp only [List.map_append, List.map_cons, List.flatten_append, List.flatten_cons, List.length_append, hp, Option.getD_none,
        List.length_cons, List.length_nil, List.sum_append, List.sum_cons] at h1
      omega

/-! Non-vacuity: a field with a weight of two entries and a bias, and one extra parameter. -/

example : ∃ named : NamedParams ℤ, named = [("w", ⟨1, [2, 3], true, true⟩), ("b", ⟨2, [5], true, true⟩), ("tied", ⟨1, [2, 3], true, true⟩)] ∧
    flatParams named = [2, 3, 5] ∧
    problemParams ⟨9, [0], true, true⟩ named [⟨7, [1], true, true⟩] = .ok named ∧
    (paramGrad (fun p => some (p.value.map (· * 10))) named).bind (splitGrad (parametersOf named)) =
      .ok [(⟨1, [2, 3], true, true⟩, [20, 30]), (⟨2, [5], true, true⟩, [50])] :=
  ⟨_, rfl, rfl, rfl, rfl⟩

example : problemParams (C := ℤ) ⟨9, [0], true, true⟩ [] [⟨7, [1], true, true⟩, ⟨8, [4, 6], true, true⟩] =
    .ok [("optimizable_parameter_0", ⟨7, [1], true, true⟩), ("optimizable_parameter_1", ⟨8, [4, 6], true, true⟩)] := rfl

end params

end Torchdyn
