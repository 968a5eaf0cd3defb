import Verif.Proofs.FinishInv
import Verif.Proofs.Ident
import Verif.Spec.Calm

/-!
# Finishing a calm body does not panic
-/

namespace CMacro

open Spec

section
variable {C : Ctx} {L : Loc} {ps : List Str}

/-- A parameter type without invalid names. -/
def CalmArg (E : Env) (n : Nat) : ArgTy → Prop
  | .known t => CalmTy E n t
  | _ => True

/-- A context for these parameters without invalid names. -/
def CalmSt (C : Ctx) (ps : List Str) (st : LState) : Prop :=
  st.argTypes.length = ps.length ∧ ∀ a ∈ st.argTypes, CalmArg C.env ps.length a

theorem CalmSt.export {st : LState} (h : CalmSt C ps st) : CalmSt C ps st.export := h

theorem CalmSt.set {st : LState} {i : Nat} {t : ArgTy} (h : CalmSt C ps st) (ht : CalmArg C.env ps.length t) :
    CalmSt C ps (st.setArg i t) := by
  refine ⟨by simpa [LState.setArg] using h.1, fun a ha => ?_⟩
  simp only [LState.setArg] at ha
  rcases List.mem_or_eq_of_mem_set ha with h' | rfl
  · exact h.2 a h'
  · exact ht

theorem CalmSt.arg {st : LState} {i : Nat} (h : CalmSt C ps st) (hi : i < ps.length) :
    ∃ t, st.argTy i = some t ∧ CalmArg C.env ps.length t := by
  rw [← h.1] at hi
  exact ⟨st.argTypes[i], by simp [LState.argTy, hi], h.2 _ (List.getElem_mem hi)⟩

theorem calm_fromRust {ffi : Option RPath} {n : Nat} : ∀ {t : RTy}, WordTy C.env t →
    (∀ u, Ty.fromRust ffi t = .ok u → CalmTy C.env n u) ∧ Ty.fromRust ffi t ≠ .error .panic
  | .ptr m t, h => by
    have ih := calm_fromRust (ffi := ffi) (n := n) (t := t) h
    simp only [Ty.fromRust]
    generalize Ty.fromRust ffi t = R at *
    rcases R with e | u
    · exact ⟨by simp, by simpa using ih.2⟩
    · refine ⟨fun v hv => ?_, by simp⟩
      cases hv
      split
      · exact ih.1 u rfl
      · exact ih.1 u rfl
  | .unit, _ => ⟨fun u hu => by cases hu; trivial, by simp [Ty.fromRust]⟩
  | .verbatim s, h => ⟨fun u hu => by cases hu; exact h, by simp [Ty.fromRust]⟩
  | .path q p, h => by
    simp only [Ty.fromRust]
    split
    · exact ⟨fun u hu => by cases hu; trivial, by simp⟩
    · split
      · rename_i s _ hs
        refine ⟨fun u hu => ?_, by simp⟩
        cases hu
        exact h s (by rw [hs]; simp)
      · exact ⟨fun u hu => by cases hu; exact h, by simp⟩
  | .other s, _ => ⟨by simp [Ty.fromRust], by simp [Ty.fromRust]⟩

theorem calm_finishConcat : ∀ {ids : List IdentCont} {st : LState}, (∀ c ∈ ids, CalmPart C.env ps.length c) →
    CalmSt C ps st → CalmSt C ps (finishConcat ids st).1 ∧ (finishConcat ids st).2 ≠ .error .panic
  | [], st, _, hs => ⟨hs, by simp [finishConcat]⟩
  | .plain _ :: ids, st, h, hs => calm_finishConcat (ids := ids) (fun c hc => h c (List.mem_cons_of_mem _ hc)) hs
  | .int n :: ids, st, h, hs => by
    simp only [finishConcat]
    have hn : n.suffix = none ∧ 0 ≤ n.value.toInt := h (.int n) List.mem_cons_self
    rw [if_pos hn]
    exact ⟨hs, by simp [unsupported]⟩
  | .arg i :: ids, st, h, hs => by
    obtain ⟨t, ht, _⟩ := hs.arg (h (.arg i) List.mem_cons_self)
    simp only [finishConcat, ht]
    exact calm_finishConcat (ids := ids) (fun c hc => h c (List.mem_cons_of_mem _ hc)) (hs.set trivial)

theorem calm_name {n : IdentExpr} {st : LState} (h : CalmName C.env ps.length n) (hs : CalmSt C ps st) :
    CalmSt C ps (n.finish st).1 ∧ (n.finish st).2 ≠ .error .panic := by
  cases n with
  | concat ids => exact calm_finishConcat h hs
  | _ => exact ⟨hs, by simp [IdentExpr.finish]⟩

theorem calm_ty (hC : CalmCtx C) : ∀ {t : Ty} {st : LState}, CalmTy C.env ps.length t → CalmSt C ps st →
    CalmTy C.env ps.length (t.finish C st).tree ∧ CalmSt C ps (t.finish C st).st ∧ (t.finish C st).res ≠ .error .panic
  | .builtIn b, st, _, hs => ⟨trivial, hs, by simp [Ty.finish]⟩
  | .path _ _, st, h, hs => ⟨h, hs, by simp [Ty.finish]⟩
  | .ptr t, st, h, hs => calm_ty hC (t := t) h hs
  | .qualified t q, st, h, hs => calm_ty hC (t := t) h hs
  | .ident n s, st, h, hs => by
    have hn := calm_name h hs
    simp only [Ty.finish]
    generalize n.finish st = R at *
    rcases R with ⟨st', e | ⟨⟩⟩
    · exact ⟨h, hn.1, by simpa using hn.2⟩
    · simp only
      split
      · rename_i id
        split
        · exact ⟨h, hn.1, by simp⟩
        · rename_i t ht
          have hf := calm_fromRust (ffi := C.ffiPrefix) (n := ps.length) (hC.ty _ _ ht)
          split
          · rename_i u hu
            exact ⟨hf.1 u hu, hn.1, by simp⟩
          · rename_i e he
            rw [he] at hf
            exact ⟨h, hn.1, by simpa using hf.2⟩
      · exact ⟨h, hn.1, by simp⟩

/-- A type that may be missing has no invalid names. -/
def CalmOpt (C : Ctx) (ps : List Str) (t : Option Ty) : Prop := ∀ u, t = some u → CalmTy C.env ps.length u

theorem calmOpt_none : CalmOpt C ps none := by simp [CalmOpt]
theorem calmOpt_builtIn {b : BuiltInType} : CalmOpt C ps (some (.builtIn b)) := by
  intro u hu; cases hu; trivial
theorem calmOpt_charPtr : CalmOpt C ps (some Ty.charPtr) := by
  intro u hu; cases hu; trivial

theorem calm_finishVar (hC : CalmCtx C) {n : IdentExpr} {st : LState} (h : CalmName C.env ps.length n) (hs : CalmSt C ps st) :
    CalmSt C ps (finishVar C n st).1 ∧ (finishVar C n st).2 ≠ .error .panic ∧
      ∀ t, (finishVar C n st).2 = .ok t → CalmOpt C ps t := by
  have hn := calm_name h hs
  simp only [finishVar]
  generalize n.finish st = R at *
  rcases R with ⟨st', e | ⟨⟩⟩
  · exact ⟨hn.1, by simpa using hn.2, by simp⟩
  · simp only
    cases n with
    | arg i =>
      obtain ⟨t, ht, hc⟩ := hn.1.arg h
      simp only [ht]
      cases t with
      | known t =>
        refine ⟨hn.1, by simp, fun u hu => ?_⟩
        cases hu
        intro v hv
        cases hv
        exact hc
      | _ => exact ⟨hn.1, by simp, fun u hu => by cases hu; exact calmOpt_none⟩
    | concat ids => exact ⟨hn.1, by simp, fun u hu => by cases hu; exact calmOpt_none⟩
    | plain id =>
      simp only
      split
      · exact ⟨hn.1.export, by simp, fun u hu => by cases hu; exact calmOpt_builtIn⟩
      · split
        · exact ⟨hn.1.export, by simp, fun u hu => by cases hu; exact calmOpt_charPtr⟩
        · split
          · exact ⟨hn.1, by simp, fun u hu => by cases hu; exact calmOpt_builtIn⟩
          · split
            · rename_i t ts hv
              have hf := calm_fromRust (ffi := C.ffiPrefix) (n := ps.length) (hC.variant _ _ _ hv).1
              split
              · rename_i u hu
                refine ⟨hn.1, by simp, fun v hv => ?_⟩
                cases hv
                intro w hw
                cases hw
                exact hf.1 u hu
              · rename_i e he
                rw [he] at hf
                exact ⟨hn.1, by simpa using hf.2, by simp⟩
            · exact ⟨hn.1.export, by simp, fun u hu => by cases hu; exact calmOpt_none⟩

theorem calm_asArg {e : Expr} {i : Nat} (h : CalmExpr C.env ps e) (he : e.asArg = some i) : i < ps.length := by
  unfold Expr.asArg at he
  split at he
  · cases he; exact h
  · cases he

theorem calm_inferArgs : ∀ {es : List Expr} {ts : List RTy} {st : LState}, CalmExprs C.env ps es →
    (∀ t ∈ ts, WordTy C.env t) → CalmSt C ps st →
    CalmSt C ps (inferArgs C es ts st).1 ∧ (inferArgs C es ts st).2 ≠ .error .panic
  | [], _, st, _, _, hs => ⟨by simpa [inferArgs] using hs, by simp [inferArgs]⟩
  | _ :: _, [], st, _, _, hs => ⟨by simpa [inferArgs] using hs, by simp [inferArgs]⟩
  | e :: es, t :: ts, st, he, ht, hs => by
    have ht' : ∀ u ∈ ts, WordTy C.env u := fun u hu => ht u (List.mem_cons_of_mem _ hu)
    simp only [inferArgs]
    split
    · exact calm_inferArgs he.2 ht' hs
    · rename_i i hi
      obtain ⟨a, ha, hc⟩ := hs.arg (calm_asArg he.1 hi)
      rw [ha]
      have hf := calm_fromRust (ffi := C.ffiPrefix) (n := ps.length) (ht t List.mem_cons_self)
      cases a with
      | unknown =>
        simp only
        split
        · rename_i u hu
          exact calm_inferArgs he.2 ht' (hs.set (hf.1 u hu))
        · rename_i e he'
          rw [he'] at hf
          exact ⟨hs, by simpa using hf.2⟩
      | _ => exact calm_inferArgs he.2 ht' hs

theorem calm_offsetofArg {a : Expr} {t : ArgTy} {st : LState} (h : CalmExpr C.env ps a) (ht : CalmArg C.env ps.length t)
    (hs : CalmSt C ps st) : CalmSt C ps (offsetofArg a t st).1 ∧ (offsetofArg a t st).2 ≠ .error .panic := by
  unfold offsetofArg
  split
  · exact ⟨hs, by simp⟩
  · rename_i i hi
    obtain ⟨a, ha, hc⟩ := hs.arg (calm_asArg h hi)
    rw [ha]
    cases a with
    | unknown => exact ⟨hs.set ht, by simp⟩
    | _ => exact ⟨hs, by simp⟩

theorem calm_finishCallee (hC : CalmCtx C) {n : IdentExpr} {as : List Expr} {st : LState} (h : CalmExprs C.env ps as)
    (hs : CalmSt C ps st) : CalmSt C ps (finishCallee C n as st).1 ∧ (finishCallee C n as st).2 ≠ .error .panic ∧
      ∀ t, (finishCallee C n as st).2 = .ok t → CalmOpt C ps t := by
  unfold finishCallee
  split
  · rename_i id
    split
    · rename_i known ret hf
      obtain ⟨hr, hk⟩ := hC.function _ _ _ hf
      have hfr := calm_fromRust (ffi := C.ffiPrefix) (n := ps.length) hr
      split
      · split
        · rename_i e he
          rw [he] at hfr
          exact ⟨hs, by simpa using hfr.2, by simp⟩
        · rename_i t ht
          have hi := calm_inferArgs h hk hs
          generalize inferArgs C as known st = R at *
          rcases R with ⟨s, e | ⟨⟩⟩
          · exact ⟨hi.1, by simpa using hi.2, by simp⟩
          · refine ⟨hi.1, by simp, fun u hu => ?_⟩
            cases hu
            intro v hv
            cases hv
            exact hfr.1 t ht
      · exact ⟨hs, by simp, fun u hu => by cases hu; exact calmOpt_none⟩
    · simp only
      split
      · split
        · rename_i a b
          have h1 := calm_offsetofArg (t := .ty) h.1 trivial hs.export
          generalize offsetofArg a .ty st.export = R at *
          rcases R with ⟨s, e | ⟨⟩⟩
          · exact ⟨h1.1, by simpa using h1.2, by simp⟩
          · have h2 := calm_offsetofArg (t := .tt) h.2.1 trivial h1.1
            simp only
            generalize offsetofArg b .tt s = R at *
            rcases R with ⟨s, e | ⟨⟩⟩
            · exact ⟨h2.1, by simpa using h2.2, by simp⟩
            · exact ⟨h2.1, by simp, fun u hu => by cases hu; exact calmOpt_none⟩
        · exact ⟨hs.export, by simp, fun u hu => by cases hu; exact calmOpt_none⟩
      · exact ⟨hs.export, by simp, fun u hu => by cases hu; exact calmOpt_none⟩
  · exact ⟨hs, by simp, fun u hu => by cases hu; exact calmOpt_none⟩

theorem calm_finishStringify {n : IdentExpr} {st : LState} (h : CalmExpr C.env ps (.stringify n)) (hs : CalmSt C ps st) :
    CalmSt C ps (finishStringify n st).1 ∧ (finishStringify n st).2 ≠ .error .panic ∧
      ∀ t, (finishStringify n st).2 = .ok t → CalmOpt C ps t := by
  cases n with
  | arg i =>
    obtain ⟨s, hi, _⟩ := h
    have hl : i < ps.length := by
      rw [List.getElem?_eq_some_iff] at hi; exact hi.1
    obtain ⟨t, ht, _⟩ := hs.arg hl
    simp only [finishStringify, ht]
    cases t with
    | ident => exact ⟨hs, by simp, fun u hu => by cases hu; exact calmOpt_charPtr⟩
    | _ => exact ⟨hs.set trivial, by simp, fun u hu => by cases hu; exact calmOpt_charPtr⟩
  | plain id =>
    simp only [finishStringify]
    split
    · exact ⟨hs.export, by simp, fun u hu => by cases hu; exact calmOpt_charPtr⟩
    · exact ⟨hs, by simp [unsupported], by simp⟩
  | concat ids => exact ⟨hs, by simp [finishStringify, unsupported], by simp [finishStringify]⟩

theorem calm_binaryEffects {op : BinOp} {l r : Expr} {st : LState} (h : CalmExpr C.env ps r) (hs : CalmSt C ps st) :
    CalmSt C ps (binaryEffects op l r st).1 ∧ (binaryEffects op l r st).2 ≠ .error .panic := by
  have key : ∀ R : LState × CgRes Unit, CalmSt C ps R.1 → R.2 ≠ .error .panic →
      CalmSt C ps (match R with
        | (st, .error e) => (st, .error e)
        | (st, .ok ()) => if op.isAssignment ∧ l.asArg.isSome then (st.export, .ok ()) else (st, .ok ()) : LState × CgRes Unit).1 ∧
      (match R with
        | (st, .error e) => (st, .error e)
        | (st, .ok ()) => if op.isAssignment ∧ l.asArg.isSome then (st.export, .ok ()) else (st, .ok ()) : LState × CgRes Unit).2
        ≠ .error .panic := by
    rintro ⟨s, e | ⟨⟩⟩ h1 h2
    · exact ⟨h1, by simpa using h2⟩
    · simp only
      split
      · exact ⟨h1.export, by simp⟩
      · exact ⟨h1, by simp⟩
  unfold binaryEffects
  apply key
  · split
    · split
      · exact hs
      · rename_i i hi
        obtain ⟨t, ht, _⟩ := hs.arg (calm_asArg h hi)
        rw [ht]
        exact hs.set trivial
    · exact hs
  · split
    · split
      · simp
      · rename_i i hi
        obtain ⟨t, ht, _⟩ := hs.arg (calm_asArg h hi)
        rw [ht]
        simp
    · simp

theorem calm_finishWchar (hC : CalmCtx C) (hE : Word C.env c!"wchar_t") {st : LState} (hs : CalmSt C ps st) : finishWchar C st ≠ .error .panic ∧
    ∀ t, finishWchar C st = .ok t → CalmTy C.env ps.length t := by
  have h := calm_ty hC (t := wcharTy) (st := st) (ps := ps) hE hs
  unfold finishWchar
  generalize wcharTy.finish C st = R at *
  rcases R with ⟨t, s, e | r⟩
  · exact ⟨by simpa using h.2.2, by simp⟩
  · refine ⟨by simp, fun u hu => ?_⟩
    cases hu
    exact h.1

theorem calm_lit (hC : CalmCtx C) (hE : Word C.env c!"wchar_t") {l : Lit} {st : LState} (hs : CalmSt C ps st) :
    l.finish C st ≠ .error .panic ∧ ∀ t, l.finish C st = .ok t → CalmOpt C ps t := by
  have hw := calm_finishWchar hC hE hs
  cases l with
  | int n => exact ⟨by simp [Lit.finish], fun t ht => by cases ht; exact calmOpt_none⟩
  | float f => exact ⟨by simp [Lit.finish], fun t ht => by cases ht; cases f <;> exact calmOpt_builtIn⟩
  | char c =>
    cases c with
    | wide c =>
      simp only [Lit.finish, LitChar.finish]
      generalize finishWchar C st = R at *
      rcases R with e | t
      · exact ⟨by simpa using hw.1, by simp⟩
      · refine ⟨by simp, fun u hu => ?_⟩
        cases hu
        intro v hv
        cases hv
        exact hw.2 t rfl
    | _ => exact ⟨by simp [Lit.finish, LitChar.finish], fun t ht => by cases ht; exact calmOpt_builtIn⟩
  | string s =>
    cases s with
    | wide c =>
      simp only [Lit.finish, LitString.finish]
      generalize finishWchar C st = R at *
      rcases R with e | t
      · exact ⟨by simpa using hw.1, by simp⟩
      · refine ⟨by simp, fun u hu => ?_⟩
        cases hu
        intro v hv
        cases hv
        exact hw.2 t rfl
    | _ => exact ⟨by simp [Lit.finish, LitString.finish], fun t ht => by cases ht; intro u hu; cases hu; trivial⟩

theorem calm_joinTy {a b : Option Ty} (ha : CalmOpt C ps a) (hb : CalmOpt C ps b) : CalmOpt C ps (joinTy a b) := by
  unfold joinTy
  split
  · exact ha
  · split
    · exact ha
    · exact hb
    · exact calmOpt_none

theorem calm_memberTy (hC : CalmCtx C) {t : Option Ty} {r : Expr} :
    memberTy C t r ≠ .error .panic ∧ ∀ u, memberTy C t r = .ok u → CalmOpt C ps u := by
  unfold memberTy
  split
  · split
    · rename_i t ht
      have hf := calm_fromRust (ffi := C.ffiPrefix) (n := ps.length) (hC.field _ _ _ ht)
      generalize Ty.fromRust C.ffiPrefix t = R at *
      rcases R with e | u
      · exact ⟨by simpa using hf.2, by simp⟩
      · refine ⟨by simp, fun v hv => ?_⟩
        cases hv
        intro w hw
        cases hw
        exact hf.1 u rfl
    · exact ⟨by simp, fun u hu => by cases hu; exact calmOpt_none⟩
  · exact ⟨by simp, fun u hu => by cases hu; exact calmOpt_none⟩

theorem calm_unaryTy {op : UnOp} {t : Option Ty} (ht : CalmOpt C ps t) :
    unaryTy L op t ≠ .error .panic ∧ ∀ u, unaryTy L op t = .ok u → CalmOpt C ps u := by
  unfold unaryTy
  split
  · exact ⟨by simp, fun u hu => by cases hu; exact calmOpt_builtIn⟩
  · split
    · exact ⟨by simp [unsupported], by simp⟩
    · split
      · rename_i t
        refine ⟨by simp, fun u hu => ?_⟩
        cases hu
        intro v hv
        cases hv
        have := ht (.ptr t) rfl
        exact this
      · exact ⟨by simp, fun u hu => by cases hu; exact calmOpt_none⟩
      · exact ⟨by simp [unsupported], by simp⟩
  · refine ⟨by simp, fun u hu => ?_⟩
    cases hu
    intro v hv
    cases t with
    | none => cases hv
    | some t =>
      cases hv
      have := ht t rfl
      exact this
  · exact ⟨by simp, fun u hu => by cases hu; exact ht⟩

/-- What holds of the result of finishing `e`. -/
structure Calmly (C : Ctx) (ps : List Str) (e : Expr) (r : Fin Expr) : Prop where
  noPanic : r.res ≠ .error .panic
  tree : CalmExpr C.env ps r.tree
  st : CalmSt C ps r.st
  fold : foldable r.tree = true → foldable e = true
  lit : ∀ l, e = .lit l → r.tree = .lit l ∨ foldable r.tree = false
  ty : ∀ t, r.res = .ok t → CalmOpt C ps t

/-- A function like `finish` that does not panic. -/
def Calms (C : Ctx) (ps : List Str) (f : Expr → LState → Fin Expr) : Prop :=
  ∀ e st, CalmExpr C.env ps e → CalmSt C ps st → Calmly C ps e (f e st)

theorem calm_finishArgs {f : Expr → LState → Fin Expr} (h : Calms C ps f) : ∀ (es : List Expr) (st : LState),
    CalmExprs C.env ps es → CalmSt C ps st → CalmExprs C.env ps (finishArgs f es st).1 ∧
      CalmSt C ps (finishArgs f es st).2.1 ∧ (finishArgs f es st).2.2 ≠ .error .panic
  | [], st, _, hs => ⟨trivial, hs, by simp [finishArgs]⟩
  | e :: es, st, he, hs => by
    have h1 := h e st he.1 hs
    simp only [finishArgs]
    generalize f e st = R at *
    rcases R with ⟨x, s, r | r⟩
    · exact ⟨⟨h1.tree, he.2⟩, h1.st, by simpa using h1.noPanic⟩
    · have ih := calm_finishArgs h es s he.2 h1.st
      exact ⟨⟨h1.tree, ih.1⟩, ih.2.1, ih.2.2⟩

theorem Spec.CalmExprs.append : ∀ {as bs : List Expr}, CalmExprs C.env ps as → CalmExprs C.env ps bs → CalmExprs C.env ps (as ++ bs)
  | [], _, _, h => h
  | _ :: _, _, h, h' => ⟨h.1, Spec.CalmExprs.append h.2 h'⟩

theorem calm_flush (cur : Option (List UInt8)) : CalmExprs C.env ps (flush cur) := by
  cases cur with
  | none => exact trivial
  | some b => exact ⟨trivial, trivial⟩

theorem calm_finishParts {f : Expr → LState → Fin Expr} (h : Calms C ps f) : ∀ (es : List Expr) (cur : Option (List UInt8)) (st : LState),
    CalmExprs C.env ps es → CalmSt C ps st → CalmExprs C.env ps (finishParts f es cur st).1 ∧
      CalmSt C ps (finishParts f es cur st).2.1 ∧ (finishParts f es cur st).2.2 ≠ .error .panic ∧
      ∀ new, (finishParts f es cur st).2.2 = .ok new → CalmExprs C.env ps new
  | [], cur, st, _, hs => ⟨trivial, hs, by simp [finishParts], fun new hn => by
      simp only [finishParts] at hn
      cases hn; exact calm_flush cur⟩
  | e :: es, cur, st, he, hs => by
    have h1 := h e st he.1 hs
    simp only [finishParts]
    generalize f e st = R at *
    rcases R with ⟨x, s, r | r⟩
    · exact ⟨⟨h1.tree, he.2⟩, h1.st, by simpa using h1.noPanic, by simp⟩
    · simp only
      have hx : CalmExpr C.env ps x := h1.tree
      split
      · split
        · exact ⟨⟨trivial, he.2⟩, h1.st, by simp [unsupported], by simp⟩
        · rename_i bs _
          have ih := calm_finishParts h es (some (cur.getD [] ++ bs)) s he.2 h1.st
          generalize finishParts f es (some (cur.getD [] ++ bs)) s = R at *
          rcases R with ⟨q, s', r⟩
          exact ⟨⟨trivial, ih.1⟩, ih.2.1, ih.2.2.1, ih.2.2.2⟩
      · split
        · exact ⟨⟨hx, he.2⟩, h1.st, by simp [unsupported], by simp⟩
        · have ih := calm_finishParts h es none s he.2 h1.st
          generalize finishParts f es none s = R at *
          rcases R with ⟨q, s', r | r⟩
          · exact ⟨⟨hx, ih.1⟩, ih.2.1, by simpa using ih.2.2.1, by simp⟩
          · refine ⟨⟨hx, ih.1⟩, ih.2.1, by simp, fun new hn => ?_⟩
            cases hn
            exact (calm_flush cur).append ⟨hx, ih.2.2.2 r rfl⟩

theorem calm_finishCondition {f : Expr → LState → Fin Expr} (h : Calms C ps f) {e : Expr} {st : LState}
    (he : CalmExpr C.env ps e) (hs : CalmSt C ps st) : (finishCondition f e st).res ≠ .error .panic ∧
      CalmExpr C.env ps (finishCondition f e st).tree ∧ CalmSt C ps (finishCondition f e st).st := by
  have h1 := h e st he hs
  simp only [finishCondition]
  generalize f e st = R at *
  rcases R with ⟨x, s, r | r⟩
  · exact ⟨by simpa using h1.noPanic, h1.tree, h1.st⟩
  · simp only
    split
    · exact ⟨by simp, ⟨by simp, h1.tree, trivial⟩, h1.st⟩
    · exact ⟨by simp, h1.tree, h1.st⟩

theorem calm_foldUnary {op : UnOp} {x e : Expr} {t : Option Ty} (hx : CalmExpr C.env ps x) (h : foldUnary C op x t = .ok e) :
    CalmExpr C.env ps e ∧ (foldable e = true → foldable x = true) := by
  have hz : foldable (zeroOf t) = true ∧ CalmExpr C.env ps (zeroOf t) := by
    unfold zeroOf; split <;> exact ⟨rfl, trivial⟩
  unfold foldUnary at h
  split at h
  all_goals first
    | (cases h; exact ⟨trivial, fun _ => rfl⟩)
    | (cases h; exact ⟨hx, id⟩)
    | (split at h <;> cases h
       · exact ⟨⟨by simp, hx, hz.2⟩, fun hf => by simpa [foldable, hz.1] using hf⟩
       · exact ⟨hx, id⟩)
    | cases h

theorem calm_adjust {op : BinOp} {l r : Expr} {lt rt : Option Ty} (hl : CalmExpr C.env ps l) (hr : CalmExpr C.env ps r)
    (hlt : CalmOpt C ps lt) (hrt : CalmOpt C ps rt) (hq : op = .div ∨ op = .rem → CalmQuotient l r) :
    let R := adjustOperands op l r lt rt
    CalmExpr C.env ps (.bin R.1 op R.2.1) ∧ CalmOpt C ps R.2.2.1 ∧ CalmOpt C ps R.2.2.2 ∧
      (foldable R.1 = true → foldable l = true) ∧ (foldable R.2.1 = true → foldable r = true) := by
  have hm : ∀ {x : Expr} {t : Ty}, maxTyCast x = some t → CalmTy C.env ps.length t ∧ CalmOpt C ps (some t) := by
    intro x t h
    have : ∃ b, t = .builtIn b := by
      unfold maxTyCast at h
      repeat' split at h
      all_goals first | (cases h; exact ⟨_, rfl⟩) | cases h
    obtain ⟨b, rfl⟩ := this
    exact ⟨trivial, calmOpt_builtIn⟩
  have hfl : ∀ f : LitFloat, CalmOpt C ps (some f.ty) := by
    intro f; cases f <;> exact calmOpt_builtIn
  unfold adjustOperands
  dsimp only
  split
  · exact ⟨⟨fun _ => .inr (.inr ⟨_, rfl, by simp⟩), trivial, trivial⟩, hfl _, hrt, fun _ => rfl, id⟩
  · exact ⟨⟨fun _ => .inr (.inr ⟨_, rfl, by simp⟩), trivial, trivial⟩, hlt, hfl _, id, fun _ => rfl⟩
  · split
    · split
      · rename_i ho _ t ht
        refine ⟨⟨fun h => ?_, ⟨(hm ht).1, hl⟩, trivial⟩, (hm ht).2, hrt, by simp [foldable], id⟩
        rcases ho with rfl | rfl <;> simp at h
      · exact ⟨⟨hq, hl, hr⟩, hlt, hrt, id, id⟩
    · exact ⟨⟨hq, hl, hr⟩, hlt, hrt, id, id⟩
  · split
    · split
      · rename_i ho _ t ht
        refine ⟨⟨fun h => ?_, trivial, ⟨(hm ht).1, hr⟩⟩, hlt, (hm ht).2, id, by simp [foldable]⟩
        rcases ho with rfl | rfl <;> simp at h
      · exact ⟨⟨hq, hl, hr⟩, hlt, hrt, id, id⟩
    · exact ⟨⟨hq, hl, hr⟩, hlt, hrt, id, id⟩
  · exact ⟨⟨hq, hl, hr⟩, hlt, hrt, id, id⟩

theorem calm_foldBinary {op : BinOp} {l r : Expr} (hq : op = .div ∨ op = .rem → CalmQuotient l r) :
    foldBinary op l r ≠ some (.error .panic) ∧
      ∀ e, foldBinary op l r = some (.ok e) → (∃ v, e = .lit v) ∧ foldable e = true ∧ foldable l = true ∧ foldable r = true := by
  unfold foldBinary
  split
  · rename_i a b
    split
    · rename_i hi
      split
      · exact ⟨by simp, fun e he => by cases he; exact ⟨⟨_, rfl⟩, rfl, rfl, rfl⟩⟩
      · rename_i hn
        exfalso
        have hz : (op = .div ∨ op = .rem) ∧ b.value = 0 := by
          cases op <;> simp_all [LitInt.op, BinOp.foldsInt]
        rcases hq hz.1 with h | h | ⟨v, hv, h⟩
        · cases h
        · cases h
        · cases hv; exact h b rfl hz.2
    · exact ⟨by simp, by simp⟩
  · split
    · exact ⟨by simp, fun e he => by cases he; exact ⟨⟨_, rfl⟩, rfl, rfl, rfl⟩⟩
    · exact ⟨by simp, by simp⟩
  · exact ⟨by simp, by simp⟩

theorem calm_castAsBinary {ty : Ty} {x e : Expr} (ht : CalmTy C.env ps.length ty) (hx : CalmExpr C.env ps x)
    (h : castAsBinary C ty x = some e) : CalmExpr C.env ps e ∧ foldable e = false := by
  unfold castAsBinary at h
  split at h
  · rename_i n op y
    split at h
    · cases op <;> simp only [UnOp.asBinary, Option.map_some, Option.map_none] at h <;> cases h <;>
        exact ⟨⟨by simp, ht, hx⟩, rfl⟩
    · cases h
  · cases h

theorem calm_castAsProduct {ty : Ty} {x e : Expr} (ht : CalmTy C.env ps.length ty) (hx : CalmExpr C.env ps x)
    (h : castAsProduct ty x = some e) : CalmExpr C.env ps e ∧ foldable e = false := by
  unfold castAsProduct at h
  split at h
  · split at h
    · cases h
      exact ⟨⟨by simp, ⟨ht, hx.1⟩, hx.2⟩, rfl⟩
    · cases h
  · cases h

/-- The result of a recursive call on something that cannot be folded. -/
theorem Calmly.other {e e' : Expr} {r : Fin Expr} (h : Calmly C ps e' r) (hf : foldable e' = false) (hl : ∀ l, e ≠ .lit l) :
    Calmly C ps e r :=
  ⟨h.noPanic, h.tree, h.st, fun h' => by rw [h.fold h'] at hf; exact Bool.noConfusion hf, fun l hl' => absurd hl' (hl l), h.ty⟩

theorem calm_finishStep (hC : CalmCtx C) (hE : Word C.env c!"wchar_t") {f : Expr → LState → Fin Expr} (h : Calms C ps f) :
    Calms C ps (finishStep C L f) := by
  intro e st he hs
  cases e with
  | var n =>
    have := calm_finishVar hC he hs
    simp only [finishStep]
    exact ⟨this.2.1, he, this.1, by simp [foldable], by simp, this.2.2⟩
  | stringify n =>
    have := calm_finishStringify he hs
    simp only [finishStep]
    exact ⟨this.2.1, he, this.1, by simp [foldable], by simp, this.2.2⟩
  | sizeOf t =>
    have ht := calm_ty hC he hs
    simp only [finishStep]
    generalize t.finish C st = R at *
    rcases R with ⟨ty, s, r | r⟩
    · exact ⟨by simpa using ht.2.2, ht.1, ht.2.1, by simp [foldable], by simp, by simp⟩
    · exact ⟨by simp, ht.1, ht.2.1, by simp [foldable], by simp, fun t ht => by cases ht; exact calmOpt_builtIn⟩
  | lit l =>
    have hl := calm_lit hC hE (l := l) hs
    cases l with
    | char c =>
      simp only [finishStep]
      simp only [Lit.finish] at hl
      generalize c.finish C st = R at *
      rcases R with e | t
      · exact ⟨by simpa using hl.1, trivial, hs, by simp [foldable], by simp [foldable], by simp⟩
      · have := hl.2 _ rfl
        exact ⟨by simp, ⟨this t rfl, trivial⟩, hs, by simp [foldable], by simp [foldable], fun u hu => by cases hu; exact this⟩
    | _ => exact ⟨hl.1, trivial, hs, id, fun l hl => by cases hl; exact .inl rfl, hl.2⟩
  | cast ty x =>
    have ht := calm_ty hC he.1 hs
    simp only [finishStep]
    generalize ty.finish C st = R at *
    rcases R with ⟨ty', s, r | r⟩
    · simp only at ht ⊢
      split
      · rename_i e' _ hp
        have := calm_castAsProduct ht.1 he.2 hp
        exact (h e' s this.1 ht.2.1).other this.2 (by simp)
      · exact ⟨by simpa using ht.2.2, ⟨ht.1, he.2⟩, ht.2.1, by simp [foldable], by simp, by simp⟩
    · simp only at ht ⊢
      have h1 := h x s he.2 ht.2.1
      generalize f x s = R at *
      rcases R with ⟨x', s', r | r⟩
      · simp only
        split
        · rename_i e' _ hp
          have := calm_castAsProduct ht.1 h1.tree hp
          exact (h e' s' this.1 h1.st).other this.2 (by simp)
        · exact ⟨by simpa using h1.noPanic, ⟨ht.1, h1.tree⟩, h1.st, by simp [foldable], by simp, by simp⟩
      · simp only
        split
        · rename_i e' hp
          have := calm_castAsBinary ht.1 h1.tree hp
          exact (h e' s' this.1 h1.st).other this.2 (by simp)
        · split
          · rename_i hc
            have hx : foldable x' = false := by
              unfold castOfString at hc
              split at hc
              · rfl
              · cases hc
            exact (h x' s' h1.tree h1.st).other hx (by simp)
          · refine ⟨by simp, ⟨ht.1, h1.tree⟩, h1.st, by simp [foldable], by simp, fun t hu => ?_⟩
            cases hu
            intro v hv
            cases hv
            exact ht.1
  | call n as =>
    simp only [finishStep]
    split
    · exact ⟨by simp [unsupported], he, hs, by simp [foldable], by simp, by simp⟩
    · have hn := calm_name he.1 hs
      generalize n.finish st = R at *
      rcases R with ⟨s, e | ⟨⟩⟩
      · exact ⟨by simpa using hn.2, he, hn.1, by simp [foldable], by simp, by simp⟩
      · have ha := calm_finishArgs h as s he.2 hn.1
        simp only
        generalize finishArgs f as s = R at *
        rcases R with ⟨as', s', e | ⟨⟩⟩
        · exact ⟨by simpa using ha.2.2, ⟨he.1, ha.1⟩, ha.2.1, by simp [foldable], by simp, by simp⟩
        · have hc := calm_finishCallee hC (n := n) ha.1 ha.2.1
          simp only
          exact ⟨hc.2.1, ⟨he.1, ha.1⟩, hc.1, by simp [foldable], by simp, hc.2.2⟩
  | concatStr ps' =>
    have hp := calm_finishParts h ps' none st he hs
    simp only [finishStep]
    generalize finishParts f ps' none st = R at *
    rcases R with ⟨q, s, e | new⟩
    · exact ⟨by simpa using hp.2.2.1, hp.1, hp.2.1, by simp [foldable], by simp, by simp⟩
    · have hn := hp.2.2.2 new rfl
      have hd : Calmly C ps (.concatStr ps') ⟨.concatStr new, s, .ok (some Ty.charPtr)⟩ :=
        ⟨by simp, hn, hp.2.1, by simp [foldable], by simp, fun t ht => by cases ht; exact calmOpt_charPtr⟩
      match new, hn, hd with
      | [p], hn, _ =>
        have h1 := h p s hn.1 hp.2.1
        exact ⟨h1.noPanic, h1.tree, h1.st, fun _ => rfl, by simp, h1.ty⟩
      | [], _, hd => exact hd
      | _ :: _ :: _, _, hd => exact hd
  | un op x =>
    have h1 := h x st he hs
    simp only [finishStep]
    generalize f x st = R at *
    rcases R with ⟨x', s, r | t⟩
    · exact ⟨by simpa using h1.noPanic, h1.tree, h1.st, h1.fold, by simp, by simp⟩
    · have hu := calm_unaryTy (L := L) (op := op) (h1.ty t rfl)
      simp only
      generalize unaryTy L op t = R at *
      rcases R with e | t'
      · exact ⟨by simpa using hu.1, h1.tree, h1.st, h1.fold, by simp, by simp⟩
      · simp only
        split
        · exact ⟨by simp, h1.tree, h1.st, h1.fold, by simp, by simp⟩
        · rename_i e' hf
          have := calm_foldUnary h1.tree hf
          exact ⟨by simp, this.1, h1.st, fun h' => h1.fold (this.2 h'), by simp, fun u h' => by cases h'; exact hu.2 _ rfl⟩
  | bin l op r =>
    have h1 := h l st he.2.1 hs
    simp only [finishStep]
    generalize f l st = R at *
    rcases R with ⟨l', s, e | lt⟩
    · refine ⟨by simpa using h1.noPanic, ⟨fun ho => ?_, h1.tree, he.2.2⟩, h1.st, ?_, by simp, by simp⟩
      · rcases he.1 ho with hq | hq
        · refine .inl ?_
          cases hf : foldable l' with
          | false => rfl
          | true => rw [h1.fold hf] at hq; cases hq
        · exact .inr hq
      · simp only [foldable, Bool.and_eq_true]
        exact fun h' => ⟨h1.fold h'.1, h'.2⟩
    · simp only
      have h2 := h r s he.2.2 h1.st
      generalize f r s = R at *
      rcases R with ⟨r', s', e | rt⟩
      all_goals
        have hq : op = .div ∨ op = .rem → CalmQuotient l' r' := by
          intro ho
          rcases he.1 ho with hq | hq | ⟨v, hv, hz⟩
          · refine .inl ?_
            cases hf : foldable l' with
            | false => rfl
            | true => rw [h1.fold hf] at hq; cases hq
          · refine .inr (.inl ?_)
            cases hf : foldable r' with
            | false => rfl
            | true => rw [h2.fold hf] at hq; cases hq
          · rcases h2.lit v hv with h' | h'
            · exact .inr (.inr ⟨v, h', hz⟩)
            · exact .inr (.inl h')
        have hb : foldable l' = true ∧ foldable r' = true → foldable l = true ∧ foldable r = true :=
          fun h' => ⟨h1.fold h'.1, h2.fold h'.2⟩
      · refine ⟨by simpa using h2.noPanic, ⟨hq, h1.tree, h2.tree⟩, h2.st, ?_, by simp, by simp⟩
        simpa only [foldable, Bool.and_eq_true] using hb
      · have he' := calm_binaryEffects (op := op) (l := l') h2.tree h2.st
        simp only
        generalize binaryEffects op l' r' s' = R at *
        rcases R with ⟨s'', e | ⟨⟩⟩
        · refine ⟨by simpa using he'.2, ⟨hq, h1.tree, h2.tree⟩, he'.1, ?_, by simp, by simp⟩
          simpa only [foldable, Bool.and_eq_true] using hb
        · have ha := calm_adjust (op := op) h1.tree h2.tree (h1.ty _ rfl) (h2.ty _ rfl) hq
          simp only
          generalize adjustOperands op l' r' lt rt = R at *
          rcases R with ⟨l2, r2, lt2, rt2⟩
          obtain ⟨ht, hlt, hrt, hfl, hfr⟩ := ha
          have hb' : foldable l2 = true ∧ foldable r2 = true → foldable l = true ∧ foldable r = true :=
            fun h' => hb ⟨hfl h'.1, hfr h'.2⟩
          simp only
          split
          · have hm := calm_memberTy (ps := ps) hC (t := lt2) (r := r2)
            refine ⟨hm.1, ht, he'.1, ?_, by simp, hm.2⟩
            simpa only [foldable, Bool.and_eq_true] using hb'
          · have hf := calm_foldBinary (op := op) (l := l2) (r := r2) ht.1
            generalize foldBinary op l2 r2 = R at *
            rcases R with _ | ⟨e | e⟩
            · refine ⟨by simp, ht, he'.1, ?_, by simp, fun u hu => ?_⟩
              · simpa only [foldable, Bool.and_eq_true] using hb'
              · cases hu
                split
                · exact calmOpt_builtIn
                · exact calm_joinTy hlt hrt
            · refine ⟨by simpa using hf.1, ht, he'.1, ?_, by simp, by simp⟩
              simpa only [foldable, Bool.and_eq_true] using hb'
            · obtain ⟨⟨v, rfl⟩, _, hfl2, hfr2⟩ := hf.2 e rfl
              have h3 := h (.lit v) s'' trivial he'.1
              refine ⟨h3.noPanic, h3.tree, h3.st, fun _ => ?_, by simp, h3.ty⟩
              simpa only [foldable, Bool.and_eq_true] using hb' ⟨hfl2, hfr2⟩
  | ternary c t u =>
    have hc := calm_finishCondition h he.1 hs
    simp only [finishStep]
    generalize finishCondition f c st = R at *
    rcases R with ⟨c', s, r | r⟩
    · exact ⟨by simpa using hc.1, ⟨hc.2.1, he.2⟩, hc.2.2, by simp [foldable], by simp, by simp⟩
    · have h1 := h t s he.2.1 hc.2.2
      simp only
      generalize f t s = R at *
      rcases R with ⟨t', s', r | tt⟩
      · exact ⟨by simpa using h1.noPanic, ⟨hc.2.1, h1.tree, he.2.2⟩, h1.st, by simp [foldable], by simp, by simp⟩
      · have h2 := h u s' he.2.2 h1.st
        simp only
        generalize f u s' = R at *
        rcases R with ⟨u', s'', r | ut⟩
        · exact ⟨by simpa using h2.noPanic, ⟨hc.2.1, h1.tree, h2.tree⟩, h2.st, by simp [foldable], by simp, by simp⟩
        · exact ⟨by simp, ⟨hc.2.1, h1.tree, h2.tree⟩, h2.st, by simp [foldable], by simp, fun v hv => by
            cases hv; exact calm_joinTy (h1.ty _ rfl) (h2.ty _ rfl)⟩

theorem calm_finish (hC : CalmCtx C) (hE : Word C.env c!"wchar_t") : ∀ n, Calms C ps (Expr.finish C L n)
  | 0 => fun e st he hs => ⟨by simp [Expr.finish], he, hs, id, fun l hl => .inl hl, by simp [Expr.finish]⟩
  | n + 1 => calm_finishStep hC hE (calm_finish hC hE n)

end

end CMacro
