import Verif.Model.FixedOdeint

/-!
Vector-field wrappers: /repo/torchdyn/core/defunc.py, core/utils.py, and the preparation step of
`NeuralODE` (core/neuralde.py:96-122).

A state tensor of shape `(batch, width)` is the list of its columns, each of type `C` (e.g. `C = B → K`):
`x[:, a:b]` is dropping and taking, `cat(·, 1)` is `++`. Python callables carry their parameter list, so
that binding a call to a signature (and its `TypeError`) is part of the model. Objects are values: a call
returns the updated object (counters, `module.t`) together with the result or the exception.
-/

namespace Torchdyn

/-- A value that can be bound to a parameter: the time, a state tensor, or the `args` dictionary. -/
inductive ArgVal (K C A : Type)
  | time (t : K)
  | state (x : List C)
  | dict (a : A)

/-- The three ways the wrappers and solvers call a vector field: `vf(x)`, `vf(t, x)` and
`vf(t, x, args=args)` (defunc.py:33, 35, 76, 84, 92). -/
inductive FieldCall (K C A : Type)
  | onlyX (x : List C)
  | tx (t : K) (x : List C)
  | txArgs (t : K) (x : List C) (args : A)

/-- A positional-or-keyword parameter of a Python function. -/
structure Param where
  name : String
  hasDefault : Bool

/-- A submodule as seen by `hasattr`: the attribute `t` (defunc.py:63-65), `trace_estimator`
(neuralde.py:113) and `_control` (neuralde.py:119), each present or absent, with the stored value.
The noise tensor of Hutchinson's estimator (neuralde.py:114-115) is not represented. -/
structure SubMod (K C : Type) where
  t : Option (Option K)
  traceEstimator : Bool
  control : Option (Option (List C))

/-- A user function: its parameters (without `self`), whether it has a `**kwargs` parameter, and its
body, a function of the submodules' attributes and of the bound parameters (unbound ones take their
default inside the body). Positional-only, keyword-only and `*args` parameters are not modelled. The
user's code is deterministic and has no other state. -/
structure PyFn (K C A : Type) where
  params : List Param
  varKw : Bool
  body : List (SubMod K C) → List (String × ArgVal K C A) → Except PyErr (List C)

/-- `'t' in getfullargspec(f).args` (core/utils.py:23, 29; defunc.py:120, 125, 134, 139). -/
def PyFn.hasT {K C A : Type} (f : PyFn K C A) : Bool := f.params.any (fun p => p.name == "t")

/-- `f` can be given the keyword `args`. -/
def PyFn.takesArgs {K C A : Type} (f : PyFn K C A) : Bool :=
  f.varKw || f.params.any (fun p => p.name == "args")

/-- Positional values of a call. -/
def FieldCall.pos {K C A : Type} : FieldCall K C A → List (ArgVal K C A)
  | .onlyX x => [.state x]
  | .tx t x => [.time t, .state x]
  | .txArgs t x _ => [.time t, .state x]

/-- Keyword values of a call. -/
def FieldCall.kw {K C A : Type} : FieldCall K C A → List (String × ArgVal K C A)
  | .onlyX _ => []
  | .tx _ _ => []
  | .txArgs _ _ a => [("args", .dict a)]

/-- Python's binding of a call to a signature: too many positional values, a keyword that is unknown or
already bound, or a missing parameter without default raise `TypeError`. -/
def PyFn.bind {K C A : Type} (f : PyFn K C A) (c : FieldCall K C A) :
    Except PyErr (List (String × ArgVal K C A)) :=
  if f.params.length < c.pos.length then throw PyErr.typeError
  else
    let posBound := (f.params.map Param.name).zip c.pos
    if c.kw.any (fun kv => posBound.any (fun b => b.1 == kv.1)) then throw PyErr.typeError
    else if c.kw.any (fun kv => !(f.varKw || f.params.any (fun p => p.name == kv.1))) then
      throw PyErr.typeError
    else
      let env := posBound ++ c.kw
      if f.params.any (fun p => !p.hasDefault && !(env.any (fun b => b.1 == p.name))) then
        throw PyErr.typeError
      else pure env

/-- Calling a user function. -/
def PyFn.call {K C A : Type} (f : PyFn K C A) (subs : List (SubMod K C)) (c : FieldCall K C A) :
    Except PyErr (List C) := do
  let env ← f.bind c
  f.body subs env

/-- The value of an integral loss: a vector (`len(dlds.shape) == 1`) or a matrix. -/
inductive LossOut (C : Type)
  | vec (c : C)
  | mat (cols : List C)

/-- Vector-field objects: a plain callable, a user `nn.Module` (its `forward` and the list
`named_modules()`, itself first), `DEFuncBase` (defunc.py:19-35) and `DEFunc` (defunc.py:38-93).
Modules are trees: a submodule shared by two parents is listed once by `named_modules`, and objects
shared between two wrappers are not modelled. -/
inductive Obj (K C A : Type)
  | fn (f : PyFn K C A)
  | module (f : PyFn K C A) (subs : List (SubMod K C))
  | base (vf : Obj K C A) (hasTimeArg : Bool) (nfe : Nat)
  | defunc (vf : Obj K C A) (order : Nat) (loss : Option (K → List C → Except PyErr (LossOut C)))
      (sensitivity : Option String) (nfe : Nat)

section

variable {K C A : Type}

/-- Assigning `t` to a submodule that has the attribute (defunc.py:64-65). -/
def SubMod.setTime (t : K) (s : SubMod K C) : SubMod K C :=
  match s.t with
  | some _ => { s with t := some (some t) }
  | none => s

/-- defunc.py:63-65, the loop over `named_modules()`. The wrappers have no attribute `t` themselves. -/
def Obj.setTime (t : K) : Obj K C A → Obj K C A
  | .fn f => .fn f
  | .module f subs => .module f (subs.map (SubMod.setTime t))
  | .base vf h n => .base (vf.setTime t) h n
  | .defunc vf o l s n => .defunc (vf.setTime t) o l s n

/-- The time, state and `args` (default `{}`) of a call accepted by the wrappers' signature
`forward(self, t, x, args={})`; the call `vf(x)` raises `TypeError`. -/
def FieldCall.unpack (empty : A) : FieldCall K C A → Except PyErr (K × List C × A)
  | .onlyX _ => throw PyErr.typeError
  | .tx t x => pure (t, x, empty)
  | .txArgs t x a => pure (t, x, a)

/-- defunc.py:70-72: `dlds[:, None]` for vectors. -/
def LossOut.cols : LossOut C → List C
  | .vec c => [c]
  | .mat l => l

/-- defunc.py:88-91: the slices `x[:, size_order*i : size_order*(i+1)]` for `i = 1, …, order - 1`,
concatenated. -/
def shiftedOrders (order : Nat) (x : List C) : List C :=
  let sizeOrder := x.length / order
  ((List.range (order - 1)).map (fun j =>
    let i := j + 1
    (x.drop (sizeOrder * i)).take (sizeOrder * (i + 1) - sizeOrder * i))).flatten

/-- `issubclass(type(vector_field), nn.Module)`. -/
def Obj.isModule : Obj K C A → Bool
  | .fn _ => false
  | _ => true

/-- Calling an object. `τ` is the time that an enclosing `DEFunc` assigns to the submodules immediately
before the call (`none`: no assignment); see `Obj.callAt_some`. `empty` is the default `args={}`.

* plain callables and modules: binding and body;
* `DEFuncBase.forward`, defunc.py:30-35;
* `DEFunc.forward`, defunc.py:60-85, with `higher_order_forward` 87-93. `self.horder_forward`
  (line 74) does not exist: `AttributeError`. A `DEFunc` built directly around a plain function has no
  `self.vf.named_modules()` (line 63): `AttributeError`, after the counter has been increased (line 61). -/
def Obj.callAt (empty : A) (τ : Option K) :
    Obj K C A → FieldCall K C A → Obj K C A × Except PyErr (List C)
  | .fn f, c => (.fn f, f.call [] c)
  | .module f subs, c =>
    let subs := match τ with
      | some t => subs.map (SubMod.setTime t)
      | none => subs
    (.module f subs, f.call subs c)
  | .base vf h n, c =>
    match c.unpack empty with
    | .error e => (.base (match τ with | some t => vf.setTime t | none => vf) h n, .error e)
    | .ok (t, x, args) =>
      let r := vf.callAt empty τ (if h then .txArgs t x args else .onlyX x)
      (.base r.1 h (n + 1), r.2)
  | .defunc vf o l s n, c =>
    match c.unpack empty with
    | .error e => (.defunc (match τ with | some t => vf.setTime t | none => vf) o l s n, .error e)
    | .ok (t, x, args) =>
      if vf.isModule = false then (.defunc (vf.setTime t) o l s (n + 1), .error PyErr.attributeError) else
      match (if s = some "autograd" then l else none) with
      | some loss =>
        let xDyn := x.drop 1
        match loss t xDyn with
        | .error e => (.defunc (vf.setTime t) o l s (n + 1), .error e)
        | .ok dlds =>
          if 1 < o then (.defunc (vf.setTime t) o l s (n + 1), .error PyErr.attributeError)
          else
            let r := vf.callAt empty (some t) (.tx t xDyn)
            (.defunc r.1 o l s (n + 1), r.2.map (fun y => dlds.cols ++ y))
      | none =>
        if 1 < o then
          let r := vf.callAt empty (some t) (.tx t x)
          (.defunc r.1 o l s (n + 1), r.2.map (fun y => shiftedOrders o x ++ y))
        else
          let r := vf.callAt empty (some t) (.txArgs t x args)
          (.defunc r.1 o l s (n + 1), r.2)

/-- A call from outside. -/
def Obj.call (empty : A) (o : Obj K C A) (c : FieldCall K C A) : Obj K C A × Except PyErr (List C) :=
  o.callAt empty none c

/-- The attribute `nfe`. -/
def Obj.nfe : Obj K C A → Option Nat
  | .base _ _ n => some n
  | .defunc _ _ _ _ n => some n
  | _ => none

/-- `'t' in getfullargspec(vector_field.forward).args`, respectively of the function itself. -/
def Obj.hasT : Obj K C A → Bool
  | .fn f => f.hasT
  | .module f _ => f.hasT
  | _ => true

/-- core/utils.py:19-35 `standardize_vf_call_signature`. -/
def standardize (vf : Obj K C A) (order : Nat := 1) (defuncWrap : Bool := false) : Obj K C A :=
  let vf :=
    if vf.isModule then
      if vf.hasT then vf else .base vf false 0
    else
      if vf.hasT then .base vf true 0 else .base vf false 0
  if defuncWrap then .defunc vf order none none 0 else vf

/-! ### `SDEFunc` -/

/-- core/defunc.py:96-142 `SDEFunc`: the two callables, each plain or a module, and the counter. -/
structure SdeObj (K C A : Type) where
  f : Obj K C A
  g : Obj K C A
  nfe : Nat

/-- defunc.py:119-128 and 132-142, common text of `f` and `g`: `func(x)` when the signature has no `t`,
`func(t, x)` otherwise. -/
def sdeCall (empty : A) (func : Obj K C A) (t : K) (x : List C) : Obj K C A × Except PyErr (List C) :=
  if func.hasT then func.call empty (.tx t x) else func.call empty (.onlyX x)

/-- defunc.py:117-128 `SDEFunc.f`. -/
def SdeObj.callF (empty : A) (s : SdeObj K C A) (t : K) (x : List C) :
    SdeObj K C A × Except PyErr (List C) :=
  let r := sdeCall empty s.f t x
  (⟨r.1, s.g, s.nfe + 1⟩, r.2)

/-- defunc.py:130-142 `SDEFunc.g`. -/
def SdeObj.callG (empty : A) (s : SdeObj K C A) (t : K) (x : List C) :
    SdeObj K C A × Except PyErr (List C) :=
  let r := sdeCall empty s.g t x
  (⟨s.f, r.1, s.nfe + 1⟩, r.2)

/-! ### `NeuralODE` -/

/-- One step of the loop neuralde.py:112-121 over a submodule, threading `excess_dims`. -/
def SubMod.prep (x : List C) (excess : Nat) (s : SubMod K C) : Nat × SubMod K C :=
  let excess := if s.traceEstimator then excess + 1 else excess
  match s.control with
  | some _ => (excess, { s with control := some (some (x.drop excess)) })
  | none => (excess, s)

/-- The loop over a list of submodules. -/
def prepSubs (x : List C) : Nat → List (SubMod K C) → Nat × List (SubMod K C)
  | excess, [] => (excess, [])
  | excess, s :: l =>
    let r := s.prep x excess
    let rest := prepSubs x r.1 l
    (rest.1, r.2 :: rest.2)

/-- The loop over `self.vf.named_modules()`; the wrappers have none of the attributes. -/
def Obj.prep (x : List C) (excess : Nat) : Obj K C A → Obj K C A
  | .fn f => .fn f
  | .module f subs => .module f (prepSubs x excess subs).2
  | .base vf h n => .base (vf.prep x excess) h n
  | .defunc vf o l s n => .defunc (vf.prep x excess) o l s n

/-- The attributes of a `NeuralODE` (neuralde.py:29-94) that matter before integration. -/
structure NeuralOde (K C A : Type) where
  vf : Obj K C A
  integralLoss : Option (K → List C → Except PyErr (LossOut C))
  sensitivity : String
  tSpan : Option (List K)

/-- neuralde.py:72-94 `NeuralODE.__init__`: wrap, then set the loss and the sensitivity of the wrapper
(`ODEProblem.__init__`, problems.py:77, standardizes a second time, without wrapping; that has no effect on
a `DEFunc`, `C50_idempotent`). -/
def NeuralOde.make (vf : Obj K C A) (order : Nat)
    (integralLoss : Option (K → List C → Except PyErr (LossOut C))) (sensitivity : String) :
    NeuralOde K C A where
  vf := match standardize (standardize vf order true) with
    | .defunc v o l _ n => .defunc v o (match integralLoss with | some f => some f | none => l)
        (some sensitivity) n
    | o => o
  integralLoss := integralLoss
  sensitivity := sensitivity
  tSpan := none

/-- neuralde.py:96-122 `_prep_integration`. `linspace01` is `torch.linspace(0, 1, 2)`. -/
def NeuralOde.prep (linspace01 : List K) (n : NeuralOde K C A) (x : List C) (tSpan : Option (List K)) :
    NeuralOde K C A × List K :=
  let ts := match tSpan, n.tSpan with
    | none, none => linspace01
    | none, some ts => ts
    | some ts, _ => ts
  let excess := if n.integralLoss.isSome ∧ n.sensitivity = "autograd" then 1 else 0
  ({ n with vf := n.vf.prep x excess }, ts)

/-- The field handed to the solver as a function of `(t, x)` on states of width `w`: the value of the
call `vf(t, x)`. Solvers combine the result with the state by elementwise arithmetic; a result of another
width is reported as `RuntimeError` (broadcasting a single column is not modelled). That the value does not
depend on the calls made in between is `Obj.call_value_stable`. -/
def Obj.field (empty : A) (o : Obj K C A) (w : Nat) (t : K) (x : Fin w → C) :
    Except PyErr (Fin w → C) :=
  match (o.call empty (.tx t (List.ofFn x))).2 with
  | .error e => .error e
  | .ok y => if h : y.length = w then .ok (fun i => y.get (i.cast h.symm)) else .error PyErr.runtimeError

end

end Torchdyn
