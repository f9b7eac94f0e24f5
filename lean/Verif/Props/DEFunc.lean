import Verif.Proofs.DEFunc
import Mathlib.Data.Rat.Defs
import Mathlib.Tactic.NormNum
import Mathlib.Tactic.Ring
import Mathlib.Tactic.Linarith

/-!
Vector-field wrappers: C50 (call signatures), C51 (evaluation counters), C52 (higher-order fields), C54
(data control).
-/

set_option linter.unusedSimpArgs false

namespace Torchdyn

variable {K C A : Type}

/-! ### C50 -/

/-- **C50**, fields without a parameter `t` (plain or module): the standardized field called with `(t, x)`
is the user's field called with `(x)`, for every user callable, whatever the other parameters. -/
theorem C50_no_time_partial (empty : A) (u : Obj K C A) (h : u.hasT = false) (t : K) (x : List C) :
    ((standardize u).call empty (.tx t x)).2 = (u.call empty (.onlyX x)).2 := by
  cases u with
  | fn f => simp only [Obj.hasT] at h; simp [standardize, Obj.isModule, Obj.hasT, h, Obj.call, Obj.callAt,
      FieldCall.unpack, pure, Except.pure]
  | module f subs => simp only [Obj.hasT] at h; simp [standardize, Obj.isModule, Obj.hasT, h, Obj.call,
      Obj.callAt, FieldCall.unpack, pure, Except.pure]
  | base vf b n => simp [Obj.hasT] at h
  | defunc vf o l s n => simp [Obj.hasT] at h

/-- **C50**, modules with a parameter `t`: they are returned as they are. -/
theorem C50_time_module_partial (u : Obj K C A) (hm : u.isModule = true) (h : u.hasT = true) :
    standardize u = u := by
  simp [standardize, hm, h]

/-- **C50**, plain callables with a parameter `t`: the standardized field called with `(t, x)` is the
user's function called with `(t, x, args={})`. -/
theorem C50_time_callable_partial (empty : A) (f : PyFn K C A) (h : f.hasT = true) (t : K) (x : List C) :
    ((standardize (.fn f)).call empty (.tx t x)).2 = f.call [] (.txArgs t x empty) := by
  simp [standardize, Obj.isModule, Obj.hasT, h, Obj.call, Obj.callAt, FieldCall.unpack, pure, Except.pure]

/-- Three signatures with which that call goes through and binds `t`, `x` by position. -/
theorem C50_accepted_signatures_partial (body : List (SubMod K C) → List (String × ArgVal K C A) →
      Except PyErr (List C)) (subs : List (SubMod K C)) (t : K) (x : List C) (a : A) (d : Bool) :
    (PyFn.mk [⟨"t", false⟩, ⟨"x", false⟩, ⟨"args", d⟩] false body).call subs (.txArgs t x a) =
        body subs [("t", .time t), ("x", .state x), ("args", .dict a)] ∧
    (PyFn.mk [⟨"t", false⟩, ⟨"x", false⟩] true body).call subs (.txArgs t x a) =
        body subs [("t", .time t), ("x", .state x), ("args", .dict a)] ∧
    (PyFn.mk [⟨"x", false⟩] false body).call subs (.onlyX x) = body subs [("x", .state x)] := by
  cases d <;> exact ⟨rfl, rfl, rfl⟩

theorem PyFn.call_txArgs_typeError (f : PyFn K C A) (subs : List (SubMod K C)) (h : f.takesArgs = false)
    (t : K) (x : List C) (a : A) : f.call subs (.txArgs t x a) = .error .typeError := by
  obtain ⟨params, kw, body⟩ := f
  simp only [PyFn.takesArgs, Bool.or_eq_false_iff] at h
  obtain ⟨hk, hp⟩ := h
  subst hk
  have hb : (PyFn.mk params false body).bind (.txArgs t x a) = .error .typeError := by
    unfold PyFn.bind
    simp only [FieldCall.pos, FieldCall.kw, List.any_cons, List.any_nil, Bool.or_false, Bool.false_or, hp,
      Bool.not_false, if_true]
    split
    · rfl
    · split <;> rfl
  simp only [PyFn.call, hb]
  rfl

/-- **C50 is false** for plain callables with a parameter `t` and no parameter `args`, such as
`lambda t, x: …`: every call of the standardized field raises `TypeError`. -/
theorem C50_time_lambda_refuted (empty : A) (f : PyFn K C A) (h : f.hasT = true)
    (ha : f.takesArgs = false) (t : K) (x : List C) :
    ((standardize (.fn f)).call empty (.tx t x)).2 = .error .typeError := by
  rw [C50_time_callable_partial empty f h, f.call_txArgs_typeError [] ha]

/-- **C50 is false** for `nn.Module`s with `forward(self, t, x)` inside a `NeuralODE`: although the module is
left unwrapped, the enclosing `DEFunc` passes it the keyword `args` and every call raises `TypeError`. -/
theorem C50_neural_ode_refuted (empty : A) (f : PyFn K C A) (subs : List (SubMod K C))
    (h : f.hasT = true) (ha : f.takesArgs = false) (sens : String) (t : K) (x : List C) :
    ((NeuralOde.make (.module f subs) 1 none sens).vf.call empty (.tx t x)).2 = .error .typeError := by
  simp [NeuralOde.make, standardize, Obj.isModule, Obj.hasT, h, Obj.call, Obj.callAt, FieldCall.unpack, pure,
    Except.pure, f.call_txArgs_typeError _ ha]

/-- **C50** for a `NeuralODE` of order one without integral loss whose field has no parameter `t`: the value is
the user's field at `x`, the time being assigned to the submodules that store it. -/
theorem C50_neural_ode_partial (empty : A) (u : Obj K C A) (h : u.hasT = false) (sens : String) (t : K)
    (x : List C) :
    ((NeuralOde.make u 1 none sens).vf.call empty (.tx t x)).2 =
      ((u.setTime t).call empty (.onlyX x)).2 := by
  cases u with
  | fn f => simp only [Obj.hasT] at h; simp [NeuralOde.make, standardize, Obj.isModule, Obj.hasT, h, Obj.call,
      Obj.callAt, FieldCall.unpack, pure, Except.pure, Obj.setTime]
  | module f subs => simp only [Obj.hasT] at h; simp [NeuralOde.make, standardize, Obj.isModule, Obj.hasT, h,
      Obj.call, Obj.callAt, FieldCall.unpack, pure, Except.pure, Obj.setTime]
  | base vf b n => simp [Obj.hasT] at h
  | defunc vf o l s n => simp [Obj.hasT] at h

/-- What standardization returns is a module, never a plain function. -/
theorem standardize_isModule (u : Obj K C A) (o : Nat) (w : Bool) : (standardize u o w).isModule = true := by
  cases w with
  | true => rfl
  | false =>
    cases u with
    | fn f => by_cases h : f.hasT = true <;> simp [standardize, Obj.isModule, Obj.hasT, h]
    | module f subs => by_cases h : f.hasT = true <;> simp [standardize, Obj.isModule, Obj.hasT, h]
    | base vf b n => rfl
    | defunc vf o l s n => rfl

/-- **C50**, idempotence: standardizing a standardized field changes nothing, for every field and order. -/
theorem C50_idempotent (u : Obj K C A) (o o' : Nat) (w : Bool) :
    standardize (standardize u o w) o' = standardize u o w := by
  cases w with
  | true => rfl
  | false =>
    cases u with
    | fn f => by_cases h : f.hasT = true <;> simp [standardize, Obj.isModule, Obj.hasT, h]
    | module f subs => by_cases h : f.hasT = true <;> simp [standardize, Obj.isModule, Obj.hasT, h]
    | base vf b n => rfl
    | defunc vf o l s n => rfl

/-- The function `lambda t, x: x` and the module with `forward(self, x): return x` (columns of rationals). -/
def idLambdaTX : PyFn ℚ ℚ Unit where
  params := [⟨"t", false⟩, ⟨"x", false⟩]
  varKw := false
  body _ env := match env with
    | [_, (_, .state x)] => .ok x
    | _ => .error .runtimeError

/-- See `idLambdaTX`. -/
def idModuleX : Obj ℚ ℚ Unit := .module
  ⟨[⟨"x", false⟩], false, fun _ env => match env with
    | [(_, .state x)] => .ok x
    | _ => .error .runtimeError⟩ [⟨none, false, none⟩]

/-- **C50 is false** of `standardize_vf_call_signature(·, order, defunc_wrap=True)`: wrapping twice nests the two
wrappers. For a second-order field the nested wrapper shifts the components twice. -/
theorem C50_defunc_wrap_refuted :
    standardize (standardize idModuleX 2 true) 2 true ≠ standardize idModuleX 2 true ∧
    ((standardize idModuleX 2 true).call () (.tx 0 [1, 2])).2 = .ok [2, 1, 2] ∧
    ((standardize (standardize idModuleX 2 true) 2 true).call () (.tx 0 [1, 2])).2 = .ok [2, 2, 1, 2] :=
  ⟨fun h => by
    simp only [standardize, Obj.isModule, Obj.hasT, idModuleX, PyFn.hasT, List.any_cons, List.any_nil,
      if_true] at h
    injection h with h1
    simp at h1, by decide +kernel, by decide +kernel⟩

/-- **C50**: at order one nesting the wrapper does not change any value. -/
theorem C50_defunc_nested (empty : A) (u : Obj K C A) (t : K) (x : List C) :
    ((standardize (standardize u 1 true) 1 true).call empty (.tx t x)).2 =
      ((standardize u 1 true).call empty (.tx t x)).2 := by
  have h := standardize_isModule u 1 false
  have e : standardize u 1 true = .defunc (standardize u 1 false) 1 none none 0 := rfl
  generalize standardize u 1 false = v at e h
  rw [e]
  simp [h, standardize, Obj.isModule, Obj.hasT, Obj.call, Obj.callAt, FieldCall.unpack, pure, Except.pure]

/-- **C50 is false** for fields that name the state first, `lambda x, t, args: …`: the names are only searched
for `t`, the values are bound by position, so the time ends up in `x` and the state in `t`. -/
theorem C50_parameter_order_refuted (body : List (SubMod K C) → List (String × ArgVal K C A) →
      Except PyErr (List C)) (empty : A) (t : K) (x : List C) :
    ((standardize (.fn ⟨[⟨"x", false⟩, ⟨"t", false⟩, ⟨"args", true⟩], false, body⟩)).call empty (.tx t x)).2 =
      body [] [("x", .time t), ("t", .state x), ("args", .dict empty)] :=
  rfl

/-- **C50** for `SDEFunc`: drift and diffusion are the user's functions, called with `(x)` when they have no
parameter `t` and with `(t, x)` when they have one — here `lambda t, x` works. -/
theorem C50_sde (empty : A) (s : SdeObj K C A) (t : K) (x : List C) :
    (s.callF empty t x).2 = (s.f.call empty (if s.f.hasT then .tx t x else .onlyX x)).2 ∧
    (s.callG empty t x).2 = (s.g.call empty (if s.g.hasT then .tx t x else .onlyX x)).2 := by
  constructor
  · cases h : s.f.hasT <;> simp [SdeObj.callF, sdeCall, h]
  · cases h : s.g.hasT <;> simp [SdeObj.callG, sdeCall, h]

/-- The hypotheses of the refutations are met by `lambda t, x: x`, whose direct call succeeds. -/
example : idLambdaTX.hasT = true ∧ idLambdaTX.takesArgs = false ∧
    idLambdaTX.call [] (.tx 0 [1, 2]) = .ok [1, 2] ∧
    ((standardize (.fn idLambdaTX)).call () (.tx 0 [1, 2])).2 = .error .typeError := by decide +kernel

example : idModuleX.hasT = false ∧ idModuleX.isModule = true ∧
    ((standardize idModuleX).call () (.tx 0 [1, 2])).2 = .ok [1, 2] := by decide +kernel

/-! ### C51 -/

/-- The object after a sequence of calls (whether they succeed or raise). -/
def Obj.runCalls (empty : A) (o : Obj K C A) (cs : List (FieldCall K C A)) : Obj K C A :=
  cs.foldl (fun o c => (o.call empty c).1) o

/-- The call has the signature `(t, x)` or `(t, x, args=…)` of the wrappers. -/
def FieldCall.wellFormed : FieldCall K C A → Bool
  | .onlyX _ => false
  | _ => true

theorem Obj.callAt_nfe (empty : A) (o : Obj K C A) (n : Nat) (h : o.nfe = some n) (τ : Option K)
    (c : FieldCall K C A) :
    (o.callAt empty τ c).1.nfe = some (if c.wellFormed then n + 1 else n) := by
  cases o with
  | fn f => simp [Obj.nfe] at h
  | module f subs => simp [Obj.nfe] at h
  | base vf b k =>
    simp only [Obj.nfe, Option.some.injEq] at h
    subst h
    cases c <;> rfl
  | defunc vf o l s k =>
    simp only [Obj.nfe, Option.some.injEq] at h
    subst h
    cases c with
    | onlyX x => rfl
    | tx t x =>
      simp only [Obj.callAt, FieldCall.unpack, pure, Except.pure, FieldCall.wellFormed]
      repeat' split
      all_goals simp_all [Obj.nfe]
    | txArgs t x a =>
      simp only [Obj.callAt, FieldCall.unpack, pure, Except.pure, FieldCall.wellFormed]
      repeat' split
      all_goals simp_all [Obj.nfe]

/-- **C51.** After any sequence of calls — including calls in which the field or the loss raises — the counter of
a wrapper has grown by the number of calls with the wrapper's signature. -/
theorem C51_nfe (empty : A) (o : Obj K C A) (n : Nat) (h : o.nfe = some n) (cs : List (FieldCall K C A)) :
    (o.runCalls empty cs).nfe = some (n + (cs.filter FieldCall.wellFormed).length) := by
  induction cs generalizing o n with
  | nil => simpa [Obj.runCalls] using h
  | cons c cs ih =>
    have h1 := Obj.callAt_nfe empty o n h none c
    have := ih (o.call empty c).1 _ h1
    simp only [Obj.runCalls, List.foldl_cons] at this ⊢
    rw [this]
    cases hc : c.wellFormed <;> simp [hc]
    omega

/-- **C51**, the calls that do not count: a wrapper called with the state alone raises `TypeError` (its signature needs the
time), and the counter stays as it is. -/
theorem C51_only_state (empty : A) (o : Obj K C A) (n : Nat) (h : o.nfe = some n) (x : List C) :
    (o.call empty (.onlyX x)).2 = .error .typeError ∧ (o.call empty (.onlyX x)).1.nfe = some n := by
  refine ⟨?_, Obj.callAt_nfe empty o n h none (.onlyX x)⟩
  cases o with
  | fn f => simp [Obj.nfe] at h
  | module f subs => simp [Obj.nfe] at h
  | base vf b k => rfl
  | defunc vf o l s k => rfl

/-- **C51**, every standardized field starts at zero, so its counter is the number of calls `(t, x)`. -/
theorem C51_standardized (empty : A) (u : Obj K C A) (hu : u.nfe = none) (o : Nat)
    (cs : List (K × List C)) :
    ((standardize u o true).runCalls empty (cs.map (fun p => .tx p.1 p.2))).nfe = some cs.length ∧
    ((standardize u o false).nfe ≠ none →
      ((standardize u o false).runCalls empty (cs.map (fun p => .tx p.1 p.2))).nfe = some cs.length) := by
  have hf : ((cs.map (fun p => FieldCall.tx p.1 p.2)).filter
      (FieldCall.wellFormed (K := K) (C := C) (A := A))).length = cs.length := by
    rw [List.filter_eq_self.2]
    · simp
    · intro a ha
      obtain ⟨p, _, rfl⟩ := List.mem_map.1 ha
      rfl
  constructor
  · rw [C51_nfe empty _ 0 rfl, hf, Nat.zero_add]
  · intro hn
    have h0 : (standardize u o false).nfe = some 0 := by
      cases u with
      | fn f => by_cases h : f.hasT = true <;> simp [standardize, Obj.isModule, Obj.hasT, h, Obj.nfe]
      | module f subs =>
        by_cases h : f.hasT = true
        · simp [standardize, Obj.isModule, Obj.hasT, h, Obj.nfe] at hn
        · simp [standardize, Obj.isModule, Obj.hasT, h, Obj.nfe]
      | base vf b n => simp [Obj.nfe] at hu
      | defunc vf o l s n => simp [Obj.nfe] at hu
    rw [C51_nfe empty _ 0 h0, hf, Nat.zero_add]

/-- **C51** for `SDEFunc`: the counter adds up the evaluations of drift and diffusion. `true` stands for a call of
`f`, `false` for a call of `g`. -/
theorem C51_sde (empty : A) (s : SdeObj K C A) (cs : List (Bool × K × List C)) :
    (cs.foldl (fun s c => if c.1 then (s.callF empty c.2.1 c.2.2).1 else (s.callG empty c.2.1 c.2.2).1) s).nfe =
      s.nfe + (cs.filter (fun c => c.1)).length + (cs.filter (fun c => !c.1)).length := by
  induction cs generalizing s with
  | nil => rfl
  | cons c cs ih =>
    rw [List.foldl_cons, ih]
    cases hc : c.1 <;> simp [hc, SdeObj.callF, SdeObj.callG] <;> omega

/-! ### C52 -/

theorem drop_flatten_const (d : Nat) : ∀ (xs : List (List C)), (∀ b ∈ xs, b.length = d) → ∀ i,
    xs.flatten.drop (d * i) = (xs.drop i).flatten := by
  intro xs h i
  induction i generalizing xs with
  | zero => simp
  | succ i ih =>
    cases xs with
    | nil => simp
    | cons a l =>
      have ha : a.length = d := h a (by simp)
      have hl : ∀ b ∈ l, b.length = d := fun b hb => h b (by simp [hb])
      rw [List.flatten_cons, List.drop_succ_cons, ← ih l hl,
        show d * (i + 1) = a.length + d * i by rw [ha]; ring, ← List.drop_drop, List.drop_left]

theorem shiftedOrders_blocks (xs : List (List C)) (d : Nat) (hne : xs ≠ [])
    (h : ∀ b ∈ xs, b.length = d) : shiftedOrders xs.length xs.flatten = xs.tail.flatten := by
  have hlen : xs.flatten.length = xs.length * d := by
    rw [List.length_flatten]
    have : xs.map List.length = List.replicate xs.length d := by
      rw [List.eq_replicate_iff]
      refine ⟨by simp, ?_⟩
      intro b hb
      obtain ⟨a, ha, rfl⟩ := List.mem_map.1 hb
      exact h a ha
    rw [this, List.sum_replicate]
    rfl
  have hpos : 0 < xs.length := List.length_pos_iff.2 hne
  have hdiv : xs.flatten.length / xs.length = d := by
    rw [hlen, Nat.mul_div_cancel_left d hpos]
  unfold shiftedOrders
  simp only [hdiv]
  congr 1
  apply List.ext_getElem
  · simp
  · intro i h1 h2
    simp only [List.length_map, List.length_range] at h1
    simp only [List.getElem_map, List.getElem_range, List.getElem_tail]
    have hi : i + 1 < xs.length := by omega
    rw [drop_flatten_const d xs h, List.drop_eq_getElem_cons hi, List.flatten_cons,
      show d * (i + 1 + 1) - d * (i + 1) = d by rw [Nat.mul_succ d (i + 1)]; omega]
    have : (xs[i + 1]).length = d := h _ (List.getElem_mem hi)
    rw [List.take_append_of_le_length (by omega), List.take_of_length_le (by omega)]

/-- **C52.** A standardized field of order `k`, applied to a state made of `k` blocks of equal width
`x_0, …, x_{k-1}`, returns the blocks `x_1, …, x_{k-1}` followed by the user's field evaluated at the whole state
(at the current time, also assigned to the submodules); exceptions of the user's field are passed on. No bound on
the order or the width. The wrapped field is a module, as it always is after standardization
(`standardize_isModule`); around a plain function see `C52_plain_function`. -/
theorem C52_higher_order (empty : A) (vf : Obj K C A) (hm : vf.isModule = true) (xs : List (List C)) (d : Nat)
    (hk : 2 ≤ xs.length) (h : ∀ b ∈ xs, b.length = d) (s : Option String) (n : Nat) (t : K) :
    ((Obj.defunc vf xs.length none s n).call empty (.tx t xs.flatten)).2 =
      ((vf.setTime t).call empty (.tx t xs.flatten)).2.map (fun y => xs.tail.flatten ++ y) := by
  have hne : xs ≠ [] := by rintro rfl; simp at hk
  have hl : (if s = some "autograd" then (none : Option (K → List C → Except PyErr (LossOut C))) else none) =
      none := by split <;> rfl
  simp only [Obj.call, Obj.callAt, FieldCall.unpack, pure, Except.pure, hl, hm, Bool.true_eq_false, if_false,
    if_pos (show 1 < xs.length by omega), shiftedOrders_blocks xs d hne h, Obj.callAt_some]

/-- **C52** through `NeuralODE`, for a user field without a parameter `t`. -/
theorem C52_neural_ode (empty : A) (u : Obj K C A) (hu : u.hasT = false) (sens : String)
    (xs : List (List C)) (d : Nat) (hk : 2 ≤ xs.length) (h : ∀ b ∈ xs, b.length = d) (t : K) :
    ((NeuralOde.make u xs.length none sens).vf.call empty (.tx t xs.flatten)).2 =
      ((u.setTime t).call empty (.onlyX xs.flatten)).2.map (fun y => xs.tail.flatten ++ y) := by
  have hv : (NeuralOde.make u xs.length none sens).vf =
      .defunc (.base u false 0) xs.length none (some sens) 0 := by
    cases u with
    | fn f => simp only [Obj.hasT] at hu; simp [NeuralOde.make, standardize, Obj.isModule, Obj.hasT, hu]
    | module f subs => simp only [Obj.hasT] at hu; simp [NeuralOde.make, standardize, Obj.isModule, Obj.hasT, hu]
    | base vf b n => simp [Obj.hasT] at hu
    | defunc vf o l s n => simp [Obj.hasT] at hu
  rw [hv, C52_higher_order empty _ rfl xs d hk h]
  rfl

/-- Beyond C52: a `DEFunc` built directly around a plain function, without standardizing it first, raises
`AttributeError` at every call, whatever the order and the loss; the counter grows all the same. -/
theorem C52_plain_function (empty : A) (f : PyFn K C A) (k : Nat)
    (l : Option (K → List C → Except PyErr (LossOut C))) (s : Option String) (n : Nat) (t : K) (x : List C) :
    ((Obj.defunc (.fn f) k l s n).call empty (.tx t x)).2 = .error .attributeError ∧
      ((Obj.defunc (.fn f) k l s n).call empty (.tx t x)).1.nfe = some (n + 1) :=
  ⟨rfl, rfl⟩

/-- Beyond C52: at order two and more, the `args` of a call never reach the user's field (they do at order
one). -/
theorem C52_args_dropped (empty : A) (vf : Obj K C A) (k : Nat) (hk : 2 ≤ k)
    (l : Option (K → List C → Except PyErr (LossOut C))) (s : Option String) (n : Nat) (t : K) (x : List C)
    (a : A) :
    ((Obj.defunc vf k l s n).call empty (.txArgs t x a)).2 =
      ((Obj.defunc vf k l s n).call empty (.tx t x)).2 := by
  simp only [Obj.call, Obj.callAt, FieldCall.unpack, pure, Except.pure, if_pos (show 1 < k by omega)]

/-- A third-order example: state `(1 2 | 3 4 | 5 6)`, field `x ↦ x[:, :2]`. -/
example :
    ((NeuralOde.make (.fn ⟨[⟨"x", false⟩], false, fun _ env => match env with
        | [(_, .state x)] => .ok (x.take 2)
        | _ => .error .runtimeError⟩ : Obj ℚ ℚ Unit) 3 none "autograd").vf.call ()
      (.tx 0 [1, 2, 3, 4, 5, 6])).2 = .ok [3, 4, 5, 6, 1, 2] := by decide +kernel

/-! ### C54 -/

/-- All submodules of an object, in the order of `named_modules()`. -/
def Obj.subs : Obj K C A → List (SubMod K C)
  | .fn _ => []
  | .module _ s => s
  | .base vf _ _ => vf.subs
  | .defunc vf _ _ _ _ => vf.subs

/-- The columns of the state that are not the dynamical state: one for an integral loss under `autograd`, one per
enclosing CNF. -/
def lossColumns (n : NeuralOde K C A) : Nat :=
  if n.integralLoss.isSome ∧ n.sensitivity = "autograd" then 1 else 0

theorem prepSubs_get (x : List C) : ∀ (l : List (SubMod K C)) (e i : Nat) (s : SubMod K C),
    l[i]? = some s →
    (prepSubs x e l).2[i]? = some { s with control := s.control.map (fun _ =>
      some (x.drop (e + ((l.take (i + 1)).filter SubMod.traceEstimator).length))) } := by
  intro l
  induction l with
  | nil => intro e i s h; simp at h
  | cons a l ih =>
    intro e i s h
    cases i with
    | zero =>
      simp only [List.getElem?_cons_zero, Option.some.injEq] at h
      subst h
      obtain ⟨at', tr, co⟩ := a
      cases tr <;> cases co <;> simp [prepSubs, SubMod.prep]
    | succ i =>
      rw [List.getElem?_cons_succ] at h
      have := ih (a.prep x e).1 i s h
      simp only [prepSubs, List.getElem?_cons_succ]
      rw [this]
      have he : (a.prep x e).1 = e + (if a.traceEstimator then 1 else 0) := by
        obtain ⟨at', tr, co⟩ := a
        cases tr <;> cases co <;> simp [SubMod.prep]
      have hcount : (((a :: l).take (i + 1 + 1)).filter SubMod.traceEstimator).length =
          (if a.traceEstimator then 1 else 0) + ((l.take (i + 1)).filter SubMod.traceEstimator).length := by
        rw [List.take_succ_cons]
        cases htr : a.traceEstimator
        · simp [htr]
        · simp [htr, Nat.add_comm]
      rw [he, hcount, Nat.add_assoc]

theorem Obj.subs_prep (x : List C) (e : Nat) (o : Obj K C A) :
    (o.prep x e).subs = (prepSubs x e o.subs).2 := by
  induction o with
  | fn f => rfl
  | module f subs => rfl
  | base vf h n ih => exact ih
  | defunc vf o l s n ih => exact ih

/-- **C54**, exactly what is stored: after the preparation of a call with initial state `x`, every submodule that
has a `_control` attribute holds the columns of `x` after the loss column and after one column per CNF listed up
to that submodule; nothing else about any submodule changes. This holds for every tree of modules and whatever the
submodules held before. -/
theorem C54_control (linspace01 : List K) (n : NeuralOde K C A) (x : List C) (ts : Option (List K))
    (i : Nat) (s : SubMod K C) (h : n.vf.subs[i]? = some s) :
    (n.prep linspace01 x ts).1.vf.subs[i]? = some { s with control := s.control.map (fun _ =>
      some (x.drop (lossColumns n + ((n.vf.subs.take (i + 1)).filter SubMod.traceEstimator).length))) } := by
  simp only [NeuralOde.prep, Obj.subs_prep]
  exact prepSubs_get x n.vf.subs _ i s h

/-- **C54**, the (un-augmented) initial state: if all CNFs of the field come before the first data-control layer in
the order of `named_modules()` — as they do when the CNFs enclose the network — every data-control layer holds the
initial state without its loss and divergence columns. -/
theorem C54_unaugmented (linspace01 : List K) (n : NeuralOde K C A) (loss divs state : List C)
    (ts : Option (List K)) (hloss : loss.length = lossColumns n)
    (hdiv : divs.length = (n.vf.subs.filter SubMod.traceEstimator).length)
    (hord : ∀ (i j : Nat) (s s' : SubMod K C), n.vf.subs[i]? = some s → n.vf.subs[j]? = some s' →
      s.control.isSome → s'.traceEstimator = true → j ≤ i) :
    ∀ s ∈ (n.prep linspace01 (loss ++ divs ++ state) ts).1.vf.subs, ∀ c, s.control = some c → c = some state := by
  intro s hs c hc
  obtain ⟨i, hi⟩ := List.getElem?_of_mem hs
  have hlt : i < n.vf.subs.length := by
    by_contra hge
    have hle : n.vf.subs.length ≤ i := not_lt.1 hge
    have hlen : ∀ (l : List (SubMod K C)) (e : Nat), (prepSubs (loss ++ divs ++ state) e l).2.length = l.length := by
      intro l
      induction l with
      | nil => intro e; rfl
      | cons a l ih => intro e; simp only [prepSubs, List.length_cons, ih]
    have hnone : (n.prep linspace01 (loss ++ divs ++ state) ts).1.vf.subs[i]? = none := by
      rw [List.getElem?_eq_none_iff]
      simp only [NeuralOde.prep, Obj.subs_prep, hlen]
      exact hle
    rw [hnone] at hi
    cases hi
  obtain ⟨s0, hs0⟩ : ∃ s0, n.vf.subs[i]? = some s0 := ⟨_, List.getElem?_eq_getElem hlt⟩
  rw [C54_control linspace01 n _ ts i s0 hs0] at hi
  simp only [Option.some.injEq] at hi
  subst hi
  cases hctl : s0.control with
  | none => simp [hctl] at hc
  | some c0 =>
    simp only [hctl, Option.map_some, Option.some.injEq] at hc
    subst hc
    have hall : ((n.vf.subs.drop (i + 1)).filter SubMod.traceEstimator) = [] := by
      rw [List.filter_eq_nil_iff]
      intro a ha htr
      obtain ⟨j, hj⟩ := List.getElem?_of_mem ha
      rw [List.getElem?_drop] at hj
      have := hord i (i + 1 + j) s0 a hs0 hj (by rw [hctl]; rfl) htr
      omega
    have hcount : ((n.vf.subs.take (i + 1)).filter SubMod.traceEstimator).length = divs.length := by
      rw [hdiv]
      conv_rhs => rw [← List.take_append_drop (i + 1) n.vf.subs, List.filter_append, hall, List.append_nil]
    rw [hcount, ← hloss, ← List.length_append, List.drop_left]

/-- **C54**, independence of earlier calls: after any history of preparations, the control values are those of the
last call alone. -/
theorem C54_last_call (linspace01 : List K) (n : NeuralOde K C A) (x y : List C)
    (ts ts' : Option (List K)) :
    ((n.prep linspace01 x ts).1.prep linspace01 y ts').1.vf.subs = (n.prep linspace01 y ts').1.vf.subs := by
  have key : ∀ (l : List (SubMod K C)) (e e' : Nat),
      (prepSubs y e (prepSubs x e' l).2) = prepSubs y e l := by
    intro l
    induction l with
    | nil => intros; rfl
    | cons a l ih =>
      intro e e'
      obtain ⟨at', tr, co⟩ := a
      cases tr <;> cases co <;> simp [prepSubs, SubMod.prep, ih]
  simp only [NeuralOde.prep, Obj.subs_prep, key]
  rfl

theorem Obj.setTime_control (t : K) (o : Obj K C A) :
    (o.setTime t).subs.map SubMod.control = o.subs.map SubMod.control := by
  induction o with
  | fn f => rfl
  | module f subs =>
    simp only [Obj.setTime, Obj.subs, List.map_map]
    apply List.map_congr_left
    intro s _
    obtain ⟨a, b, c⟩ := s
    cases a <;> rfl
  | base vf h n ih => exact ih
  | defunc vf o l s n ih => exact ih

theorem Obj.callAt_control (empty : A) (o : Obj K C A) : ∀ (τ : Option K) (c : FieldCall K C A),
    (o.callAt empty τ c).1.subs.map SubMod.control = o.subs.map SubMod.control := by
  induction o with
  | fn f => intros; rfl
  | module f subs =>
    intro τ c
    cases τ with
    | none => rfl
    | some t => exact Obj.setTime_control t (.module f subs)
  | base vf h n ih =>
    intro τ c
    simp only [Obj.callAt]
    cases c.unpack empty with
    | error e =>
      cases τ with
      | none => rfl
      | some t => exact Obj.setTime_control t vf
    | ok p => exact ih _ _
  | defunc vf o l s n ih =>
    intro τ c
    simp only [Obj.callAt]
    cases c.unpack empty with
    | error e =>
      cases τ with
      | none => rfl
      | some t => exact Obj.setTime_control t vf
    | ok p =>
      obtain ⟨t, x, args⟩ := p
      simp only
      repeat' split
      all_goals first | exact Obj.setTime_control t vf | exact ih _ _

/-- **C54**, during integration: evaluating the field, any number of times and at any times and states, leaves every
control value as it was prepared. -/
theorem C54_during_integration (empty : A) (o : Obj K C A) (cs : List (FieldCall K C A)) :
    (o.runCalls empty cs).subs.map SubMod.control = o.subs.map SubMod.control := by
  induction cs generalizing o with
  | nil => rfl
  | cons c cs ih =>
    have := ih (o.call empty c).1
    simp only [Obj.runCalls, List.foldl_cons] at this ⊢
    rw [this]
    exact Obj.callAt_control empty o none c

/-- A field whose module list is: container, data-control layer, CNF. -/
def controlBeforeCnf : Obj ℚ ℚ Unit :=
  .module ⟨[⟨"x", false⟩], false, fun _ _ => .error .runtimeError⟩
    [⟨none, false, none⟩, ⟨none, false, some none⟩, ⟨none, true, none⟩]

/-- **C54 is false** without the order condition: a data-control layer listed before the CNF of the field keeps the
divergence column. -/
theorem C54_order_refuted :
    ((NeuralOde.make controlBeforeCnf 1 none "autograd").prep [0, 1] [10, 1, 2] none).1.vf.subs.map
      SubMod.control = [none, some (some [10, 1, 2]), none] := by decide +kernel

/-- The hypotheses of `C54_unaugmented` are met by a CNF around a network with two data-control layers, with an
integral loss: one loss column, one divergence column, two state columns. -/
example : ((NeuralOde.make (.module ⟨[⟨"x", false⟩], false, fun _ _ => .error .runtimeError⟩
      [⟨none, true, none⟩, ⟨none, false, some none⟩, ⟨some none, false, none⟩, ⟨none, false, some none⟩] :
        Obj ℚ ℚ Unit) 1 (some fun _ _ => .ok (.vec 0)) "autograd").prep [0, 1] [20, 10, 1, 2] none).1.vf.subs.map
      SubMod.control = [none, some (some [1, 2]), none, some (some [1, 2])] := by decide +kernel

/-! ### C84 -/

/-- The submodules as they are when every time-aware one holds `t`. -/
def withTimeSet (t : K) (subs : List (SubMod K C)) : List (SubMod K C) :=
  subs.map fun s => ⟨s.t.map fun _ => some t, s.traceEstimator, s.control⟩

theorem SubMod.setTime_eq (t : K) (s : SubMod K C) :
    s.setTime t = ⟨s.t.map fun _ => some t, s.traceEstimator, s.control⟩ := by
  obtain ⟨a, b, c⟩ := s
  cases a <;> rfl

theorem Obj.setTime_subs (t : K) (o : Obj K C A) : (o.setTime t).subs = withTimeSet t o.subs := by
  induction o with
  | fn f => rfl
  | module f subs =>
    simp only [Obj.setTime, Obj.subs, withTimeSet]
    exact List.map_congr_left fun s _ => SubMod.setTime_eq t s
  | base vf h n ih => exact ih
  | defunc vf o l s n ih => exact ih

theorem withTimeSet_twice (t : K) (subs : List (SubMod K C)) : withTimeSet t (withTimeSet t subs) = withTimeSet t subs := by
  simp only [withTimeSet, List.map_map]
  refine List.map_congr_left fun s _ => ?_
  obtain ⟨a, b, c⟩ := s
  cases a <;> rfl

/-- The time of a call. -/
def FieldCall.timeIs (t : K) : FieldCall K C A → Prop
  | .onlyX _ => True
  | .tx s _ => s = t
  | .txArgs s _ _ => s = t

theorem Obj.callAt_subs (empty : A) (t : K) (o : Obj K C A) : ∀ c : FieldCall K C A, c.timeIs t →
    (o.callAt empty (some t) c).1.subs = withTimeSet t o.subs := by
  induction o with
  | fn f => intros; rfl
  | module f subs => intro c _; exact Obj.setTime_subs t (.module f subs)
  | base vf h n ih =>
    intro c hc
    simp only [Obj.callAt]
    cases c with
    | onlyX x => exact Obj.setTime_subs t vf
    | tx s x =>
      refine ih _ ?_
      cases h
      · exact trivial
      · exact hc
    | txArgs s x a =>
      refine ih _ ?_
      cases h
      · exact trivial
      · exact hc
  | defunc vf o l s n ih =>
    intro c hc
    have key : ∀ x a, (match c.unpack empty with
        | .error _ => True
        | .ok p => p = (t, x, a) → ((Obj.defunc vf o l s n).callAt empty (some t) c).1.subs = withTimeSet t vf.subs) := by
      intro x a
      cases hu : c.unpack empty with
      | error e => trivial
      | ok p =>
        rintro rfl
        simp only [Obj.callAt, hu]
        repeat' split
        all_goals first | exact Obj.setTime_subs t vf | exact ih _ rfl
    cases c with
    | onlyX x => exact Obj.setTime_subs t vf
    | tx s' x => cases hc; exact key x empty rfl
    | txArgs s' x a => cases hc; exact key x a rfl

/-- **C84.** After any evaluation of a `DEFunc` at time `t` — of any order, with or without integral loss, through any nesting
of wrappers, and even if the field or the loss raises — every submodule with an attribute `t` holds `t`; nothing else about
the submodules has changed. -/
theorem C84_after_call (empty : A) (vf : Obj K C A) (o : Nat) (l : Option (K → List C → Except PyErr (LossOut C)))
    (s : Option String) (n : Nat) (t : K) (x : List C) (a : A) :
    ((Obj.defunc vf o l s n).call empty (.tx t x)).1.subs = withTimeSet t vf.subs ∧
      ((Obj.defunc vf o l s n).call empty (.txArgs t x a)).1.subs = withTimeSet t vf.subs := by
  have key : ∀ c : FieldCall K C A, c.timeIs t → c.wellFormed = true →
      ((Obj.defunc vf o l s n).callAt empty none c).1 = ((Obj.defunc vf o l s n).callAt empty (some t) c).1 := by
    intro c _ hw
    cases c with
    | onlyX x => simp [FieldCall.wellFormed] at hw
    | tx s' x => rfl
    | txArgs s' x a => rfl
  constructor
  · unfold Obj.call
    rw [key (.tx t x) rfl rfl]
    exact Obj.callAt_subs empty t (.defunc vf o l s n) _ rfl
  · unfold Obj.call
    rw [key (.txArgs t x a) rfl rfl]
    exact Obj.callAt_subs empty t (.defunc vf o l s n) _ rfl

/-- **C84.** The user's module runs with the current time: evaluating a `NeuralODE` of order one at time `t` executes the body
of the user's `forward(self, x)` while every submodule with an attribute `t` holds `t`, whatever it held before. -/
theorem C84_seen_by_module (empty : A) (f : PyFn K C A) (subs : List (SubMod K C)) (h : f.hasT = false) (sens : String) (t : K)
    (x : List C) :
    ((NeuralOde.make (.module f subs) 1 none sens).vf.call empty (.tx t x)).2 =
      f.call (withTimeSet t subs) (.onlyX x) := by
  rw [C50_neural_ode_partial empty (.module f subs) h sens t x]
  have := Obj.setTime_subs t (.module f subs : Obj K C A)
  simp only [Obj.setTime, Obj.subs] at this
  simp only [Obj.setTime, this, Obj.call, Obj.callAt]

/-- Non-vacuity: a module whose second submodule is time-aware and holds an old time. -/
example : ((Obj.defunc (.module ⟨[⟨"x", false⟩], false, fun _ _ => .error .runtimeError⟩
    [⟨none, false, none⟩, ⟨some (some 5), false, none⟩] : Obj ℚ ℚ Unit) 1 none none 0).call () (.tx 2 [1])).1.subs.map
      SubMod.t = [none, some (some 2)] := by
  rw [(C84_after_call () _ 1 none none 0 2 [1] ()).1]
  rfl

end Torchdyn
