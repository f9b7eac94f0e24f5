import Verif.Model.DEFunc

/-! Helper lemmas about vector-field objects. -/

set_option linter.unusedSimpArgs false

namespace Torchdyn

variable {K C A : Type}

theorem SubMod.setTime_setTime (t t' : K) (s : SubMod K C) :
    (s.setTime t').setTime t = s.setTime t := by
  obtain ⟨a, b, c⟩ := s
  cases a <;> rfl

theorem Obj.setTime_setTime (t t' : K) (o : Obj K C A) : (o.setTime t').setTime t = o.setTime t := by
  induction o with
  | fn f => rfl
  | module f subs =>
    simp only [Obj.setTime, List.map_map, Obj.module.injEq, true_and]
    apply List.map_congr_left
    intro s _
    exact SubMod.setTime_setTime t t' s
  | base vf h n ih => simp only [Obj.setTime, ih]
  | defunc vf o l s n ih => simp only [Obj.setTime, ih]

@[simp]
theorem Obj.isModule_setTime (t : K) (o : Obj K C A) : (o.setTime t).isModule = o.isModule := by
  cases o <;> rfl

@[simp]
theorem Obj.isModule_callAt (empty : A) (τ : Option K) (o : Obj K C A) (c : FieldCall K C A) :
    (o.callAt empty τ c).1.isModule = o.isModule := by
  cases o with
  | fn f => rfl
  | module f subs => rfl
  | base vf h n =>
    simp only [Obj.callAt]
    split <;> rfl
  | defunc vf o l s n =>
    simp only [Obj.callAt]
    repeat' split
    all_goals rfl

theorem Obj.callAt_setTime (empty : A) (t : K) (o : Obj K C A) :
    ∀ (t' : K) (c : FieldCall K C A),
      (o.setTime t).callAt empty (some t') c = o.callAt empty (some t') c := by
  induction o with
  | fn f => intros; rfl
  | module f subs =>
    intro t' c
    simp only [Obj.setTime, Obj.callAt, List.map_map]
    have : (SubMod.setTime (C := C) t' ∘ SubMod.setTime t) = SubMod.setTime t' :=
      funext (fun s => SubMod.setTime_setTime t' t s)
    rw [this]
  | base vf h n ih =>
    intro t' c
    simp only [Obj.setTime, Obj.callAt, ih, Obj.setTime_setTime, Obj.isModule_setTime]
  | defunc vf o l s n ih =>
    intro t' c
    simp only [Obj.setTime, Obj.callAt, ih, Obj.setTime_setTime, Obj.isModule_setTime]

/-- Calling with an assigned time is: assign the time to every submodule, then call. -/
theorem Obj.callAt_some (empty : A) (t : K) (o : Obj K C A) :
    ∀ c, o.callAt empty (some t) c = (o.setTime t).callAt empty none c := by
  induction o with
  | fn f => intro c; rfl
  | module f subs => intro c; rfl
  | base vf h n ih =>
    intro c
    simp only [Obj.setTime, Obj.callAt, ih]
  | defunc vf o l s n _ =>
    intro c
    simp only [Obj.setTime, Obj.callAt, Obj.callAt_setTime, Obj.setTime_setTime, Obj.isModule_setTime]

/-- The object left by a call with assigned time `t` behaves, at any later assigned time, like the
original one. -/
theorem Obj.callAt_fst_value (empty : A) (o : Obj K C A) :
    ∀ (t t' : K) (c c' : FieldCall K C A),
    ((o.callAt empty (some t) c).1.callAt empty (some t') c').2 = (o.callAt empty (some t') c').2 := by
  induction o with
  | fn f => intros; rfl
  | module f subs =>
    intro t t' c c'
    simp only [Obj.callAt, List.map_map]
    have : (SubMod.setTime (C := C) t' ∘ SubMod.setTime t) = SubMod.setTime t' :=
      funext (fun s => SubMod.setTime_setTime t' t s)
    rw [this]
  | base vf h n ih =>
    intro t t' c c'
    cases hc : c.unpack empty with
    | error e =>
      cases hc' : c'.unpack empty with
      | error e' => simp only [Obj.callAt, hc, hc']
      | ok p => simp only [Obj.callAt, hc, hc', Obj.callAt_setTime]
    | ok p =>
      cases hc' : c'.unpack empty with
      | error e' => simp only [Obj.callAt, hc, hc']
      | ok p => simp only [Obj.callAt, hc, hc', ih]
  | defunc vf o l s n ih =>
    intro t t' c c'
    have hkey : ∀ o₁ : Obj K C A, (∀ τ c, (o₁.callAt empty (some τ) c).2 = (vf.callAt empty (some τ) c).2) →
        o₁.isModule = vf.isModule → ∀ n', ((Obj.defunc o₁ o l s n').callAt empty (some t') c').2 =
          ((Obj.defunc vf o l s n).callAt empty (some t') c').2 := by
      intro o₁ h hm n'
      simp only [Obj.callAt, hm]
      cases c'.unpack empty with
      | error e => rfl
      | ok p =>
        obtain ⟨τ, x, args⟩ := p
        simp only
        repeat' split
        all_goals first | rfl | simp only [h]
    have hset : ∀ u : K, ∀ τ c, ((vf.setTime u).callAt empty (some τ) c).2 =
        (vf.callAt empty (some τ) c).2 := fun u τ c => by rw [Obj.callAt_setTime]
    have hcall : ∀ (u : K) (d : FieldCall K C A), ∀ τ c,
        (((vf.callAt empty (some u) d).1).callAt empty (some τ) c).2 =
        (vf.callAt empty (some τ) c).2 := fun u d τ c => ih u τ d c
    have hshape : ∃ o₁ n', ((Obj.defunc vf o l s n).callAt empty (some t) c).1 = Obj.defunc o₁ o l s n' ∧
        (∀ τ c, (o₁.callAt empty (some τ) c).2 = (vf.callAt empty (some τ) c).2) ∧
        o₁.isModule = vf.isModule := by
      simp only [Obj.callAt]
      cases c.unpack empty with
      | error e => exact ⟨_, _, rfl, hset t, vf.isModule_setTime t⟩
      | ok p =>
        obtain ⟨u, x, args⟩ := p
        simp only
        repeat' split
        all_goals first
          | exact ⟨_, _, rfl, hset u, vf.isModule_setTime u⟩
          | exact ⟨_, _, rfl, hcall u _, Obj.isModule_callAt empty (some u) vf _⟩
    obtain ⟨o₁, n', he, ho, hm⟩ := hshape
    rw [he]
    exact hkey o₁ ho hm n'

/-- The value of a `DEFunc` call does not depend on the calls made before: every call assigns the time
anew before evaluating the field. -/
theorem Obj.call_value_stable (empty : A) (vf : Obj K C A) (o : Nat)
    (l : Option (K → List C → Except PyErr (LossOut C))) (s : Option String) (n : Nat)
    (c c' : FieldCall K C A) :
    (((Obj.defunc vf o l s n).call empty c).1.call empty c').2 =
      ((Obj.defunc vf o l s n).call empty c').2 := by
  cases hc : c.unpack empty with
  | error e => simp only [Obj.call, Obj.callAt, hc]
  | ok p =>
    obtain ⟨t, x, args⟩ := p
    have h1 : ((Obj.defunc vf o l s n).call empty c).1 =
        ((Obj.defunc vf o l s n).callAt empty (some t) c).1 := by
      simp only [Obj.call, Obj.callAt, hc]
    cases hc' : c'.unpack empty with
    | error e =>
      have : ∃ o₁ n', ((Obj.defunc vf o l s n).call empty c).1 = Obj.defunc o₁ o l s n' := by
        simp only [Obj.call, Obj.callAt, hc]
        repeat' split
        all_goals exact ⟨_, _, rfl⟩
      obtain ⟨o₁, n', he⟩ := this
      rw [he]
      simp only [Obj.call, Obj.callAt, hc']
    | ok p' =>
      obtain ⟨t', x', args'⟩ := p'
      have h2 : ∀ (v : Obj K C A) (n : Nat), ((Obj.defunc v o l s n).call empty c').2 =
          ((Obj.defunc v o l s n).callAt empty (some t') c').2 := by
        intro v n
        simp only [Obj.call, Obj.callAt, hc']
      have : ∃ o₁ n', ((Obj.defunc vf o l s n).callAt empty (some t) c).1 = Obj.defunc o₁ o l s n' := by
        simp only [Obj.callAt, hc]
        repeat' split
        all_goals exact ⟨_, _, rfl⟩
      obtain ⟨o₁, n', he⟩ := this
      rw [h1, h2 vf n, ← Obj.callAt_fst_value empty (Obj.defunc vf o l s n) t t' c c', he, h2]

end Torchdyn
