import Verif.Model.Generate
import Verif.Proofs.StmtEnd

/-!
# From `finish` to `generate`
-/

namespace CMacro

/-- What `VarMacro::generate` makes of a finished expression. -/
def varOut (C : Ctx) (r : Fin Expr) : CgRes (List RTok × Option (List RTok)) :=
  match r with
  | ⟨_, _, .error x⟩ => .error x
  | ⟨e, st, .ok t⟩ =>
    let P : PCtx := ⟨C, varLoc C, st.exportAsMacro⟩
    let out : List RTok × Option (List RTok) := match e with
      | .lit (.string s) => ((s.toks P true).2, some (s.toks P true).1)
      | e => (e.toks P, t.map (·.toks P))
    if !(toksOk C.env out.1 && toksOk C.env (out.2.getD [])) then .error .panic
    else if st.exportAsMacro then .error (.err .nonConstantVarMacro)
    else .ok out

theorem VarMacro.generate_expr (n : Nat) (C : Ctx) (name : Str) (e : Expr) :
    VarMacro.generate n C ⟨name, .expr e⟩ = varOut C (e.finish C (varLoc C) n .init) := rfl

theorem varGenerates {C : Ctx} {name : Str} {e : Expr} {r : Fin Expr}
    (h : Ev C (varLoc C) e .init r) : VarMacro.Generates C ⟨name, .expr e⟩ (varOut C r) := by
  obtain ⟨_, N, hN⟩ := h
  exact ⟨N, fun n hn => by rw [VarMacro.generate_expr, hN n hn]⟩

theorem VarMacro.Generates.unique {C : Ctx} {m : VarMacro} {r r'} (h : m.Generates C r) (h' : m.Generates C r') : r = r' := by
  obtain ⟨N, hN⟩ := h
  obtain ⟨M, hM⟩ := h'
  rw [← hN (max N M) (by omega), ← hM (max N M) (by omega)]

theorem FnMacro.Generates.unique {C : Ctx} {m : FnMacro} {r r'} (h : m.Generates C r) (h' : m.Generates C r') : r = r' := by
  obtain ⟨N, hN⟩ := h
  obtain ⟨M, hM⟩ := h'
  rw [← hN (max N M) (by omega), ← hM (max N M) (by omega)]

/-- What `FnMacro::generate` makes of a finished body. -/
def fnOut (C : Ctx) (m : FnMacro) (r : Fin MacroBody) : CgRes GenFn :=
  match r with
  | ⟨_, _, .error e⟩ => .error e
  | ⟨body, st, .ok ret⟩ =>
    let exp := st.exportAsMacro || (C.function m.name).isSome || namesVariadic m.args
      || !st.argTypes.all ArgTy.isKnown || ret.isNone
    let P : PCtx := ⟨C, fnLoc m.args, exp⟩
    let out : GenFn :=
      if exp then .macro m.name (macroParams m.args st.argTypes) (body.toks P)
      else .fn m.name (fnParams P m.args st.argTypes) (retToks P ret) (body.toks P)
    if toksOk C.env out.toks then .ok out else .error .panic

/-- Whether a `macro_rules!` macro is generated (/repo/src/fn_macro.rs:174-178). -/
def asMacro (C : Ctx) (m : FnMacro) (st : LState) (ret : Option Ty) : Bool :=
  st.exportAsMacro || (C.function m.name).isSome || namesVariadic m.args
    || !st.argTypes.all ArgTy.isKnown || ret.isNone

theorem fnOut_ok {C : Ctx} {m : FnMacro} {b : MacroBody} {st : LState} {ret : Option Ty} {out : GenFn}
    (h : fnOut C m ⟨b, st, .ok ret⟩ = .ok out) : toksOk C.env out.toks = true ∧
    ((asMacro C m st ret = true ∧ out = .macro m.name (macroParams m.args st.argTypes) (b.toks ⟨C, fnLoc m.args, true⟩)) ∨
     (asMacro C m st ret = false ∧ out = .fn m.name (fnParams ⟨C, fnLoc m.args, false⟩ m.args st.argTypes)
        (retToks ⟨C, fnLoc m.args, false⟩ ret) (b.toks ⟨C, fnLoc m.args, false⟩))) := by
  unfold fnOut at h
  dsimp only at h
  rcases ha : asMacro C m st ret with _ | _
  · have ha' := ha
    unfold asMacro at ha'
    simp only [ha', Bool.false_eq_true, if_false] at h
    split at h
    · cases h
      exact ⟨by assumption, .inr ⟨rfl, rfl⟩⟩
    · cases h
  · have ha' := ha
    unfold asMacro at ha'
    simp only [ha', if_true] at h
    split at h
    · cases h
      exact ⟨by assumption, .inl ⟨rfl, rfl⟩⟩
    · cases h

theorem FnMacro.generate_eq (n : Nat) (C : Ctx) (m : FnMacro) {tys : List ArgTy}
    (h : argTypes C m.name m.args = .ok tys) :
    m.generate n C = fnOut C m (m.body.finish C (Expr.finish C (fnLoc m.args) n) ⟨tys, false⟩) := by
  unfold FnMacro.generate
  rw [h]; rfl

theorem FnMacro.Generates.argTypes {C : Ctx} {m : FnMacro} {out : GenFn} (h : m.Generates C (.ok out)) :
    ∃ tys, argTypes C m.name m.args = .ok tys := by
  obtain ⟨N, hN⟩ := h
  have := hN N (Nat.le_refl _)
  unfold FnMacro.generate at this
  split at this
  · cases this
  · exact ⟨_, by assumption⟩

theorem fnGenerates {C : Ctx} {name : Str} {args : List Str} {e : Expr} {tys : List ArgTy} {r : Fin Expr}
    (ha : argTypes C name args = .ok tys) (h : Ev C (fnLoc args) e ⟨tys, false⟩ r) :
    FnMacro.Generates C ⟨name, args, .expr e⟩ (fnOut C ⟨name, args, .expr e⟩ ⟨.expr r.tree, r.st, r.res⟩) := by
  obtain ⟨_, N, hN⟩ := h
  exact ⟨N, fun n hn => by rw [FnMacro.generate_eq n C _ ha]; simp only [MacroBody.finish, hN n hn]⟩

/-- A run that stays within its depth bound gives the result. -/
theorem varGenerates_of (n : Nat) (C : Ctx) (name : Str) (e : Expr)
    (h : (e.finish C (varLoc C) n .init).res ≠ .error .diverge) :
    VarMacro.Generates C ⟨name, .expr e⟩ (VarMacro.generate n C ⟨name, .expr e⟩) :=
  varGenerates ⟨h, n, fun _ hm => Expr.finish_stable hm h⟩

/-- A run that stays within its depth bound gives the result. -/
theorem fnGenerates_of (n : Nat) (C : Ctx) (name : Str) (args : List Str) (e : Expr) (tys : List ArgTy)
    (ha : argTypes C name args = .ok tys) (h : (e.finish C (fnLoc args) n ⟨tys, false⟩).res ≠ .error .diverge) :
    FnMacro.Generates C ⟨name, args, .expr e⟩ (FnMacro.generate n C ⟨name, args, .expr e⟩) := by
  have := fnGenerates ha ⟨h, n, fun _ hm => Expr.finish_stable hm h⟩
  rwa [FnMacro.generate_eq n C _ ha]

/-- Every call of `VarMacro::generate` returns. -/
theorem VarMacro.generates_total (C : Ctx) (m : VarMacro) : ∃ r, m.Generates C r ∧ r ≠ .error .diverge := by
  obtain ⟨name, body⟩ := m
  cases body with
  | stmt s => exact ⟨_, ⟨0, fun n _ => rfl⟩, by simp⟩
  | expr e =>
    obtain ⟨r, hr⟩ := finish_ends C (varLoc C) e .init
    refine ⟨_, varGenerates hr, ?_⟩
    have hd := hr.1
    rcases r with ⟨e', st, r | r⟩
    · simpa [varOut] using hd
    · simp only [varOut]
      intro h
      repeat' split at h
      all_goals cases h

/-- Every call of `FnMacro::generate` returns. -/
theorem FnMacro.generates_total (C : Ctx) (m : FnMacro) : ∃ r, m.Generates C r ∧ r ≠ .error .diverge := by
  have ht := argTypes_ne C m.name m.args
  rcases h : argTypes C m.name m.args with e | tys
  · refine ⟨.error e, ⟨0, fun n _ => ?_⟩, by rw [h] at ht; simpa using ht⟩
    unfold FnMacro.generate
    rw [h]
  · obtain ⟨r, N, hd, hN⟩ := MacroBody.finish_ends (C := C) (L := fnLoc m.args) m.body ⟨tys, false⟩
    refine ⟨_, ⟨N, fun n hn => by rw [FnMacro.generate_eq n C m h, hN n hn]⟩, ?_⟩
    rcases r with ⟨b, st, r | r⟩
    · simpa [fnOut] using hd
    · simp only [fnOut]
      intro h
      repeat' split at h
      all_goals cases h

end CMacro
