import Verif.Spec.Again
import Verif.Proofs.Generate
import Verif.Props.Constants

/-!
# Finishing what was finished
-/

namespace CMacro

open Spec

theorem Ev.same {C : Ctx} {L : Loc} {e : Expr} {st : LState} {r r' : Fin Expr} (h : Ev C L e st r) (h' : Ev C L e st r') : r = r' := by
  obtain ⟨_, N, hN⟩ := h
  obtain ⟨_, M, hM⟩ := h'
  rw [← hN (max N M) (by omega), ← hM (max N M) (by omega)]

theorem Ev.ok {C : Ctx} {L : Loc} {e e' : Expr} {st st' : LState} {t : Option Ty} {n : Nat}
    (h : Expr.finish C L n e st = ⟨e', st', .ok t⟩) : Ev C L e st ⟨e', st', .ok t⟩ :=
  ⟨by simp, n, fun m hm => by rw [Expr.finish_stable hm (by rw [h]; simp), h]⟩

/-- A step that needs no recursive call. -/
theorem Ev.now {C : Ctx} {L : Loc} {e : Expr} {st : LState} {r : Fin Expr} (hr : r.res ≠ .error .diverge)
    (h : ∀ f, finishStep C L f e st = r) : Ev C L e st r := .step hr 0 fun _ _ => h _

/-! ## Types -/


/-- Types that are given back as they are. -/
inductive FixedTy (C : Ctx) : Ty → Prop
  | builtIn (b) : FixedTy C (.builtIn b)
  | path (lc segs) : FixedTy C (.path lc segs)
  | ident {s t} : C.resolveTy s = some t → Ty.fromRust C.ffiPrefix t = .ok (.ident (.plain s) false) →
      FixedTy C (.ident (.plain s) false)
  | ptr {t} : FixedTy C t → FixedTy C (.ptr t)
  | qualified {t q} : FixedTy C t → FixedTy C (.qualified t q)

theorem FixedTy.finish {C : Ctx} {u : Ty} (h : FixedTy C u) (st : LState) : u.finish C st = ⟨u, st, .ok none⟩ := by
  induction h with
  | builtIn | path => rfl
  | ident h1 h2 => simp [Ty.finish, IdentExpr.finish, h1, h2]
  | ptr _ ih => simp [Ty.finish, ih]
  | qualified _ ih => simp [Ty.finish, ih]

theorem FixedTy.cast {C : Ctx} {u : Ty} (h : FixedTy C u) (x : Expr) : castAsBinary C u x = none := by
  cases h with
  | ident h1 h2 => cases x <;> simp [castAsBinary, treatAsBinop, h1]
  | _ => simp [castAsBinary]

theorem fromRust_fixed {C : Ctx} : ∀ (t : RTy) (u : Ty), Ty.fromRust C.ffiPrefix t = .ok u →
    (∀ s ∈ typeNames u, ∃ t', C.resolveTy s = some t' ∧ Ty.fromRust C.ffiPrefix t' = .ok (.ident (.plain s) false)) →
    FixedTy C u
  | .ptr m t, u, h, hs => by
    rw [Ty.fromRust] at h
    split at h
    · rename_i v hv
      cases m <;> simp at h <;> subst h <;> simp only [typeNames] at hs
      · exact .qualified (.ptr (fromRust_fixed t _ hv hs))
      · exact .ptr (fromRust_fixed t _ hv hs)
    · cases h
  | .unit, u, h, hs => by cases h; exact .builtIn _
  | .verbatim s, u, h, hs => by
    cases h
    obtain ⟨_, h1, h2⟩ := hs s (by simp [typeNames])
    exact .ident h1 h2
  | .other _, u, h, hs => by cases h
  | .path k p, u, h, hs => by
    rw [Ty.fromRust] at h
    split at h
    · cases h; exact .builtIn _
    · split at h
      · cases h
        obtain ⟨_, h1, h2⟩ := hs _ (by simp [typeNames]; rfl)
        exact .ident h1 h2
      · cases h; exact .path _ _

theorem finish_fixed {C : Ctx} (hC : Settled C) : ∀ (ty u : Ty) (st st' : LState) (r : Option Ty), namedTy ty = true →
    ty.finish C st = ⟨u, st', .ok r⟩ → st' = st ∧ r = none ∧ FixedTy C u
  | .builtIn _, _, _, _, _, _, h => by cases h; exact ⟨rfl, rfl, .builtIn _⟩
  | .path _ _, _, _, _, _, _, h => by cases h; exact ⟨rfl, rfl, .path _ _⟩
  | .ptr t, u, st, st', r, hn, h => by
    obtain ⟨⟨a, b, c⟩, hr⟩ : ∃ o, t.finish C st = o := ⟨_, rfl⟩
    simp only [Ty.finish, hr] at h
    injection h with h1 h2 h3; subst h1 h2 h3
    obtain ⟨rfl, rfl, h⟩ := finish_fixed hC t _ _ _ _ hn hr
    exact ⟨rfl, rfl, .ptr h⟩
  | .qualified t q, u, st, st', r, hn, h => by
    obtain ⟨⟨a, b, c⟩, hr⟩ : ∃ o, t.finish C st = o := ⟨_, rfl⟩
    simp only [Ty.finish, hr] at h
    injection h with h1 h2 h3; subst h1 h2 h3
    obtain ⟨rfl, rfl, h⟩ := finish_fixed hC t _ _ _ _ hn hr
    exact ⟨rfl, rfl, .qualified h⟩
  | .ident n b, u, st, st', r, hn, h => by
    cases n with
    | plain s =>
      simp only [Ty.finish, IdentExpr.finish] at h
      split at h
      · cases h
      · rename_i t ht
        split at h
        · rename_i t' ht'
          cases h
          exact ⟨rfl, rfl, fromRust_fixed t _ ht' (hC _ _ _ ht ht')⟩
        · cases h
    | _ => simp [namedTy] at hn

/-! ## Expressions -/

mutual
theorem noDeref_all : ∀ e : Expr, noDeref e = true → e.All Spec.NotDeref
  | .var _, _ | .lit _, _ | .stringify _, _ | .sizeOf _, _ => trivial
  | .cast _ x, h => ⟨trivial, noDeref_all x (by simpa [noDeref] using h)⟩
  | .un op x, h => by
    cases op <;> simp only [noDeref, Bool.false_eq_true] at h <;> exact ⟨trivial, noDeref_all x h⟩
  | .bin l _ r, h => by
    simp only [noDeref, Bool.and_eq_true] at h
    exact ⟨trivial, noDeref_all l h.1, noDeref_all r h.2⟩
  | .ternary c t u, h => by
    simp only [noDeref, Bool.and_eq_true] at h
    exact ⟨trivial, noDeref_all c h.1.1, noDeref_all t h.1.2, noDeref_all u h.2⟩
  | .call _ as, h => ⟨trivial, noDerefs_all as (by simpa [noDeref] using h)⟩
  | .concatStr ps, h => ⟨trivial, noDerefs_all ps (by simpa [noDeref] using h)⟩
theorem noDerefs_all : ∀ es : List Expr, noDerefs es = true → Expr.AllL Spec.NotDeref es
  | [], _ => trivial
  | e :: es, h => by
    simp only [noDerefs, Bool.and_eq_true] at h
    exact ⟨noDeref_all e h.1, noDerefs_all es h.2⟩
end

/-- Numbers come from numbers. -/
def NumOf (e : Expr) : Expr → Prop
  | .lit (.int _) => (numeral e).isSome = true
  | .lit (.float _) => numeral e = some true
  | _ => True

/-- What is shown of `finish`. -/
def Again (C : Ctx) (L : Loc) (f : Expr → LState → Fin Expr) : Prop :=
  ∀ e st e' st' t, steady e = true → f e st = ⟨e', st', .ok t⟩ →
    NumOf e e' ∧ Ev C L e' st ⟨e', st', .ok t⟩

theorem int_again {C : Ctx} {L : Loc} (i : LitInt) (st : LState) : Ev C L (.lit (.int i)) st ⟨.lit (.int i), st, .ok none⟩ :=
  .now (by simp) fun _ => rfl

theorem float_again {C : Ctx} {L : Loc} (i : LitFloat) (st : LState) :
    Ev C L (.lit (.float i)) st ⟨.lit (.float i), st, .ok (some i.ty)⟩ :=
  .now (by simp) fun _ => rfl

/-- Finishing a list of expressions again. -/
def AgainL (C : Ctx) (L : Loc) (es' : List Expr) (st st' : LState) : Prop :=
  ∃ N, ∀ n ≥ N, finishArgs (Expr.finish C L n) es' st = (es', st', .ok ())

theorem finishArgs_again {C : Ctx} {L : Loc} {f : Expr → LState → Fin Expr} (h : Again C L f) :
    ∀ (es es' : List Expr) (st st' : LState), steadys es = true → finishArgs f es st = (es', st', .ok ()) →
      AgainL C L es' st st'
  | [], _, _, _, _, he => by cases he; exact ⟨0, fun _ _ => rfl⟩
  | e :: es, es', st, st', hs, he => by
    simp only [steadys, Bool.and_eq_true] at hs
    obtain ⟨⟨a, s, r⟩, hr⟩ : ∃ o, f e st = o := ⟨_, rfl⟩
    simp only [finishArgs, hr] at he
    rcases r with r | r
    · cases he
    · dsimp only at he
      obtain ⟨⟨b, s', r'⟩, hr'⟩ : ∃ o, finishArgs f es s = o := ⟨_, rfl⟩
      rw [hr'] at he
      cases he
      obtain ⟨_, _, N, hN⟩ := h _ _ _ _ _ hs.1 hr
      obtain ⟨M, hM⟩ := finishArgs_again h es _ _ _ hs.2 hr'
      exact ⟨max N M, fun n hn => by simp only [finishArgs, hN n (by omega), hM n (by omega)]⟩

/-- The parts a string may have. -/
theorem stringPart_step {C : Ctx} {L : Loc} {p p' : Expr} {st st' : LState} {t : Option Ty} {f : Expr → LState → Fin Expr} (h : stringPart p = true)
    (he : finishStep C L f p st = ⟨p', st', .ok t⟩) :
    p' = p ∧ (∀ g, finishStep C L g p st = ⟨p, st', .ok t⟩) ∧ (∀ g, finishStep C L g p st' = ⟨p, st', .ok t⟩) ∧
      ((∃ s, p = .lit (.string s)) → st' = st) := by
  cases p with
  | lit l =>
    cases l with
    | string s =>
      simp only [finishStep] at he ⊢
      injection he with h1 h2 h3
      subst h1 h2
      exact ⟨rfl, fun _ => by rw [h3], fun _ => by rw [h3], fun _ => rfl⟩
    | _ => simp [stringPart] at h
  | var n =>
    cases n with
    | arg i =>
      simp only [finishStep, finishVar, IdentExpr.finish] at he ⊢
      rcases hi : st.argTy i with _ | a
      · simp [hi] at he
      · cases a <;> simp only [hi] at he <;> cases he <;> simp [hi]
    | plain id =>
      simp only [finishStep, finishVar, IdentExpr.finish] at he ⊢
      repeat' split at he
      all_goals (try (cases he))
      all_goals (rename_i hq <;> simp_all [LState.export])
    | concat _ => simp [stringPart] at h
  | stringify n =>
    cases n with
    | arg i =>
      simp only [finishStep, finishStringify] at he ⊢
      rcases hi : st.argTy i with _ | a
      · simp [hi] at he
      · have hlt : i < st.argTypes.length := by
          simp only [LState.argTy] at hi
          exact (List.getElem?_eq_some_iff.1 hi).1
        have hset : (st.setArg i .expr).argTy i = some .expr := by simp [LState.setArg, LState.argTy, hlt]
        have hset2 : (st.setArg i .expr).setArg i .expr = st.setArg i .expr := by simp [LState.setArg]
        cases a <;> simp only [hi] at he <;> cases he <;> simp [hi, hset, hset2]
    | plain id =>
      simp only [finishStep, finishStringify] at he ⊢
      by_cases hq : id = c!"__LINE__" ∨ id = c!"__FILE__"
      · simp only [hq, if_true] at he
        cases he
        simp [hq, LState.export]
      · simp [hq, unsupported] at he
    | concat _ => simp [finishStep, finishStringify] at he
  | _ => simp [stringPart] at h

section
variable {C : Ctx} {L : Loc}

theorem finish_part {n : Nat} {p p' : Expr} {st st' : LState} {t : Option Ty} (h : stringPart p = true)
    (he : Expr.finish C L n p st = ⟨p', st', .ok t⟩) :
    p' = p ∧ (∀ m, Expr.finish C L (m + 1) p st = ⟨p, st', .ok t⟩) ∧ (∀ m, Expr.finish C L (m + 1) p st' = ⟨p, st', .ok t⟩) ∧
      ((∃ s, p = .lit (.string s)) → st' = st) := by
  cases n with
  | zero => cases he
  | succ n =>
    obtain ⟨h1, h2, h3, h4⟩ := stringPart_step h he
    exact ⟨h1, fun m => h2 _, fun m => h3 _, h4⟩

/-- One part that is no string. -/
theorem finishParts_other {n : Nat} {p : Expr} {ps : List Expr} {cur : Option (List UInt8)} {st st1 : LState} {t : Option Ty}
    (hp : ∀ s, p ≠ .lit (.string s)) (hf : Expr.finish C L n p st = ⟨p, st1, .ok t⟩) :
    finishParts (Expr.finish C L n) (p :: ps) cur st =
      if badPart p then (p :: ps, st1, .error (unsupported c!"concatenation of variables"))
      else match finishParts (Expr.finish C L n) ps none st1 with
        | (ps, st, .ok new) => (p :: ps, st, .ok (flush cur ++ p :: new))
        | (ps, st, .error x) => (p :: ps, st, .error x) := by
  rw [finishParts, hf]
  cases p with
  | lit l =>
    cases l with
    | string s => exact absurd rfl (hp s)
    | _ => rfl
  | _ => rfl

/-- One part that is a string. -/
theorem finishParts_string {n : Nat} {s : LitString} {ps : List Expr} {cur : Option (List UInt8)} {st st1 : LState} {t : Option Ty}
    (hf : Expr.finish C L n (.lit (.string s)) st = ⟨.lit (.string s), st1, .ok t⟩) :
    finishParts (Expr.finish C L n) (.lit (.string s) :: ps) cur st =
      match s.asBytes with
      | none => (.lit (.string s) :: ps, st1, .error (unsupported c!"concatenation of wide strings"))
      | some bs =>
        match finishParts (Expr.finish C L n) ps (some (cur.getD [] ++ bs)) st1 with
        | (ps, st, r) => (.lit (.string s) :: ps, st, r) := by
  rw [finishParts, hf]
  rfl

theorem string_cases (p : Expr) : (∃ s, p = .lit (.string s)) ∨ ∀ s, p ≠ .lit (.string s) := by
  cases p with
  | lit l => cases l <;> simp
  | _ => simp

theorem finishParts_flush {m : Nat} {cur : Option (List UInt8)} {l : List Expr} {st : LState}
    {q new : List Expr} {s : LState} (hl : ∀ c, finishParts (Expr.finish C L (m + 1)) l c st = (q, s, .ok (flush c ++ new))) :
    finishParts (Expr.finish C L (m + 1)) (flush cur ++ l) none st = (flush cur ++ q, s, .ok (flush cur ++ new)) := by
  cases cur with
  | none => simpa [flush] using hl none
  | some bs =>
    have hf : Expr.finish C L (m + 1) (.lit (.string (.ordinary bs))) st = ⟨.lit (.string (.ordinary bs)), st, .ok (some (constPtr (.builtIn .char)))⟩ := rfl
    simp only [flush, List.cons_append, List.nil_append]
    rw [finishParts_string hf]
    simp [LitString.asBytes, hl, flush]

theorem finishParts_again {n : Nat} (m : Nat) : ∀ (ps q new : List Expr) (cur : Option (List UInt8)) (st s : LState),
    ps.all stringPart = true → finishParts (Expr.finish C L n) ps cur st = (q, s, .ok new) →
      finishParts (Expr.finish C L (m + 1)) new none st = (new, s, .ok new) ∧
      (new = [] → s = st) ∧
      (∀ p, new = [p] → (s = st ∧ ∃ bs, p = .lit (.string (.ordinary bs))) ∨
        (stringPart p = true ∧ ∃ t, (∀ m, Expr.finish C L (m + 1) p st = ⟨p, s, .ok t⟩) ∧
          ∀ m, Expr.finish C L (m + 1) p s = ⟨p, s, .ok t⟩))
  | [], q, new, cur, st, s, _, h => by
    simp only [finishParts, Prod.mk.injEq, Except.ok.injEq] at h
    obtain ⟨rfl, rfl, rfl⟩ := h
    refine ⟨?_, fun _ => rfl, fun p hp => ?_⟩
    · have := finishParts_flush (C := C) (L := L) (m := m) (cur := cur) (l := []) (st := st) (q := []) (s := st) (new := [])
        (fun c => by simp [finishParts])
      simpa using this
    · cases cur with
      | none => simp [flush] at hp
      | some bs =>
        simp only [flush, List.cons.injEq, and_true] at hp
        exact .inl ⟨rfl, bs, hp.symm⟩
  | p :: ps, q, new, cur, st, s, ha, h => by
    simp only [List.all_cons, Bool.and_eq_true] at ha
    obtain ⟨⟨p', st1, r⟩, hf⟩ : ∃ o, Expr.finish C L n p st = o := ⟨_, rfl⟩
    rcases r with r | t
    · rw [finishParts, hf] at h; cases h
    · obtain ⟨rfl, h1, h2, h3⟩ := finish_part ha.1 hf
      rcases string_cases p' with ⟨x, rfl⟩ | hx
      · obtain rfl := h3 ⟨_, rfl⟩
        rw [finishParts_string hf] at h
        split at h
        · cases h
        · obtain ⟨⟨a, b, c⟩, ho⟩ : ∃ o, finishParts (Expr.finish C L n) ps (some (cur.getD [] ++ ‹_›)) st1 = o := ⟨_, rfl⟩
          rw [ho] at h
          simp only [Prod.mk.injEq] at h
          obtain ⟨_, rfl, rfl⟩ := h
          exact finishParts_again m ps _ _ _ _ _ ha.2 ho
      · rw [finishParts_other hx hf] at h
        split at h
        · cases h
        · rename_i hb
          obtain ⟨⟨a, b, c⟩, ho⟩ : ∃ o, finishParts (Expr.finish C L n) ps none st1 = o := ⟨_, rfl⟩
          rw [ho] at h
          rcases c with c | c
          · cases h
          · simp only [Prod.mk.injEq, Except.ok.injEq] at h
            obtain ⟨_, rfl, rfl⟩ := h
            obtain ⟨i1, i2, i3⟩ := finishParts_again m ps _ _ _ _ _ ha.2 ho
            refine ⟨?_, by simp, fun x hx' => ?_⟩
            · exact finishParts_flush fun c => by
                rw [finishParts_other hx (h1 m), if_neg hb, i1]
            · cases cur with
              | some bs => simp [flush] at hx'
              | none =>
                simp only [flush, List.nil_append, List.cons.injEq] at hx'
                obtain ⟨rfl, rfl⟩ := hx'
                obtain rfl := i2 rfl
                exact .inr ⟨ha.1, t, h1, h2⟩

/-! ### Operators -/

theorem adjust_again {op : BinOp} {l r l2 r2 : Expr} {lt rt lt2 rt2 : Option Ty} {st s1 s2 : LState}
    (hl : Ev C L l st ⟨l, s1, .ok lt⟩) (hr : Ev C L r s1 ⟨r, s2, .ok rt⟩)
    (ha : adjustOperands op l r lt rt = (l2, r2, lt2, rt2)) :
    Ev C L l2 st ⟨l2, s1, .ok lt2⟩ ∧ Ev C L r2 s1 ⟨r2, s2, .ok rt2⟩ ∧
      adjustOperands op l2 r2 lt2 rt2 = (l2, r2, lt2, rt2) ∧
      (∀ s, binaryEffects op l2 r2 s = binaryEffects op l r s) := by
  have hcast : ∀ {x : Expr} {t ty : Option Ty} {u : Ty} {s s' : LState}, maxTyCast x = some u →
      Ev C L x s ⟨x, s', .ok t⟩ → Ev C L (.cast u x) s ⟨.cast u x, s', .ok (some u)⟩ := by
    intro x t ty u s s' hm hx
    obtain ⟨_, N, hN⟩ := hx
    have hu : ∃ b, u = .builtIn b := by
      unfold maxTyCast at hm
      repeat' split at hm
      all_goals (try cases hm)
      all_goals exact ⟨_, rfl⟩
    obtain ⟨b, rfl⟩ := hu
    exact .step (by simp) N fun n hn => by
      simp [finishStep, Ty.finish, hN n hn, castAsBinary, castOfString]
  have hmax : ∀ {x : Expr} {u : Ty}, maxTyCast x = some u → ∃ id, x = .var (.plain id) := by
    intro x u hm
    unfold maxTyCast at hm
    split at hm
    · exact ⟨_, rfl⟩
    · cases hm
  have ha0 := ha
  unfold adjustOperands at ha
  split at ha
  · -- a whole number and a floating one
    cases ha
    have e := hl.same (int_again _ _)
    cases e
    exact ⟨float_again _ _, hr, rfl, fun s => rfl⟩
  · cases ha
    have e := hr.same (int_again _ _)
    cases e
    exact ⟨hl, float_again _ _, rfl, fun s => rfl⟩
  · split at ha
    · split at ha
      · rename_i u hu
        cases ha
        refine ⟨hcast (ty := none) hu hl, hr, ?_, fun s => ?_⟩
        · simp [adjustOperands, maxTyCast]
        · obtain ⟨id, rfl⟩ := hmax hu
          rfl
      · cases ha; exact ⟨hl, hr, ha0, fun s => rfl⟩
    · cases ha; exact ⟨hl, hr, ha0, fun s => rfl⟩
  · split at ha
    · split at ha
      · rename_i u hu
        cases ha
        refine ⟨hl, hcast (ty := none) hu hr, ?_, fun s => ?_⟩
        · simp [adjustOperands, maxTyCast]
        · obtain ⟨id, rfl⟩ := hmax hu
          rfl
      · cases ha; exact ⟨hl, hr, ha0, fun s => rfl⟩
    · cases ha; exact ⟨hl, hr, ha0, fun s => rfl⟩
  · cases ha; exact ⟨hl, hr, ha0, fun s => rfl⟩

/-- The numbers that operands were. -/
theorem adjust_num {op : BinOp} {l r l2 r2 : Expr} {lt rt lt2 rt2 : Option Ty} {el er : Expr}
    (hl : NumOf el l) (hr : NumOf er r) (ha : adjustOperands op l r lt rt = (l2, r2, lt2, rt2)) :
    (∀ a b, l2 = .lit (.int a) → r2 = .lit (.int b) → (numeral (.bin el op er)).isSome = true) ∧
    (∀ a b, l2 = .lit (.float a) → r2 = .lit (.float b) → numeral (.bin el op er) = some true) := by
  have key : ∀ {x : Expr} {a}, (numeral x = some a) → (numeral x).isSome = true := by intro x a h; simp [h]
  unfold adjustOperands at ha
  repeat' split at ha
  all_goals cases ha
  all_goals refine ⟨fun a b h1 h2 => ?_, fun a b h1 h2 => ?_⟩
  all_goals (try cases h1)
  all_goals (try cases h2)
  all_goals simp only [NumOf, Option.isSome_iff_exists] at hl hr
  all_goals (try obtain ⟨x, hl⟩ := hl)
  all_goals (try obtain ⟨y, hr⟩ := hr)
  all_goals simp [numeral, hl, hr]

/-- Folding keeps the state. -/
theorem effects_fold {op : BinOp} {l r : Expr} {s s' : LState} (hl : l.asArg = none) (hr : r.asArg = none)
    (h : binaryEffects op l r s = (s', .ok ())) : s' = s := by
  unfold binaryEffects at h
  simp only [hl, hr] at h
  split at h
  · cases h
  · rename_i heq
    split at heq <;> cases heq <;> simp at h <;> exact h.symm

theorem bin_again {n : Nat} (h : Again C L (Expr.finish C L n)) {l r e' : Expr} {op : BinOp} {st st' : LState} {t : Option Ty}
    (hsl : steady l = true) (hsr : steady r = true)
    (he : finishStep C L (Expr.finish C L n) (.bin l op r) st = ⟨e', st', .ok t⟩) :
    NumOf (.bin l op r) e' ∧ Ev C L e' st ⟨e', st', .ok t⟩ := by
  obtain ⟨⟨l1, s1, rl⟩, h1⟩ : ∃ o, Expr.finish C L n l st = o := ⟨_, rfl⟩
  simp only [finishStep, h1] at he
  rcases rl with rl | lt
  · cases he
  obtain ⟨⟨r1, s2, rr⟩, h2⟩ : ∃ o, Expr.finish C L n r s1 = o := ⟨_, rfl⟩
  simp only [h2] at he
  rcases rr with rr | rt
  · cases he
  obtain ⟨⟨s3, re⟩, h3⟩ : ∃ o, binaryEffects op l1 r1 s2 = o := ⟨_, rfl⟩
  simp only [h3] at he
  rcases re with re | ⟨⟩
  · cases he
  obtain ⟨⟨l2, r2, lt2, rt2⟩, h4⟩ : ∃ o, adjustOperands op l1 r1 lt rt = o := ⟨_, rfl⟩
  simp only [h4] at he
  obtain ⟨nl, el⟩ := h _ _ _ _ _ hsl h1
  obtain ⟨nr, er⟩ := h _ _ _ _ _ hsr h2
  obtain ⟨num1, num2⟩ := adjust_num nl nr h4
  obtain ⟨el2, er2, ha, hb⟩ := adjust_again el er h4
  have el3 := el2
  have er3 := er2
  obtain ⟨_, N, hN⟩ := el2
  obtain ⟨_, M, hM⟩ := er2
  have hb3 : binaryEffects op l2 r2 s2 = (s3, .ok ()) := by rw [hb, h3]
  have stays : ∀ {res}, res ≠ .error .diverge →
      (∀ k, finishStep C L (Expr.finish C L (k + max N M)) (.bin l2 op r2) st = ⟨.bin l2 op r2, s3, res⟩) →
      Ev C L (.bin l2 op r2) st ⟨.bin l2 op r2, s3, res⟩ := fun hd hk =>
    .step hd (max N M) fun k hk' => by
      obtain ⟨j, rfl⟩ : ∃ j, k = j + max N M := ⟨k - max N M, by omega⟩
      exact hk j
  by_cases hop : op = .memberAccess
  · simp only [hop, if_true] at he
    injection he with e1 e2 e3
    subst e1 e2 hop
    refine ⟨trivial, ?_⟩
    rw [← e3]
    refine stays (by rw [e3]; simp) fun k => ?_
    simp only [finishStep, hN _ (show k + max N M ≥ N by omega), hM _ (show k + max N M ≥ M by omega), hb3, ha, if_true]
  · simp only [hop, if_false] at he
    rcases hfold : foldBinary op l2 r2 with _ | (err | e2)
    · simp only [hfold] at he
      injection he with e1 e2 e3
      subst e1 e2
      refine ⟨trivial, ?_⟩
      rw [← e3]
      refine stays (by simp) fun k => ?_
      simp only [finishStep, hN _ (show k + max N M ≥ N by omega), hM _ (show k + max N M ≥ M by omega), hb3, ha, hop, if_false,
        hfold]
    · simp only [hfold] at he
      cases he
    · simp only [hfold] at he
      unfold foldBinary at hfold
      split at hfold
      · rename_i a b
        split at hfold
        · split at hfold
          · cases hfold
            have q1 := el3.same (int_again _ _)
            cases q1
            have q2 := er3.same (int_again _ _)
            cases q2
            obtain rfl := effects_fold rfl rfl hb3
            have q3 := (Ev.ok he).same (int_again _ _)
            cases q3
            exact ⟨num1 _ _ rfl rfl, int_again _ _⟩
          · cases hfold
        · cases hfold
      · rename_i a b
        split at hfold
        · cases hfold
          have q1 := el3.same (float_again _ _)
          cases q1
          have q2 := er3.same (float_again _ _)
          cases q2
          obtain rfl := effects_fold rfl rfl hb3
          have q3 := (Ev.ok he).same (float_again _ _)
          cases q3
          exact ⟨num2 _ _ rfl rfl, float_again _ _⟩
        · cases hfold
      · cases hfold

theorem un_again {n : Nat} (h : Again C L (Expr.finish C L n)) {x e' : Expr} {op : UnOp} {st st' : LState} {t : Option Ty}
    (hs : steady (.un op x) = true)
    (he : finishStep C L (Expr.finish C L n) (.un op x) st = ⟨e', st', .ok t⟩) :
    NumOf (.un op x) e' ∧ Ev C L e' st ⟨e', st', .ok t⟩ := by
  simp only [steady, Bool.and_eq_true] at hs
  obtain ⟨⟨x1, s1, rl⟩, h1⟩ : ∃ o, Expr.finish C L n x st = o := ⟨_, rfl⟩
  simp only [finishStep, h1] at he
  rcases rl with rl | xt
  · cases he
  obtain ⟨nx, ex⟩ := h _ _ _ _ _ hs.2 h1
  have ex3 := ex
  obtain ⟨_, N, hN⟩ := ex
  rcases h2 : unaryTy L op xt with er | t2
  · simp only [h2] at he; cases he
  simp only [h2] at he
  rcases h3 : foldUnary C op x1 t2 with er | e2
  · simp only [h3] at he; cases he
  simp only [h3] at he
  cases he
  have stays : e' = .un op x1 → NumOf (.un op x) e' ∧ Ev C L e' st ⟨e', st', .ok t⟩ := by
    rintro rfl
    exact ⟨trivial, .step (by simp) N fun k hk => by simp only [finishStep, hN k hk, h2, h3]⟩
  have hi : ∀ {i}, x1 = .lit (.int i) → st' = st ∧ xt = none := by
    rintro i rfl
    have := ex3.same (int_again _ _)
    cases this
    exact ⟨rfl, rfl⟩
  have hf : ∀ {i : LitFloat}, x1 = .lit (.float i) → st' = st ∧ xt = some i.ty := by
    rintro i rfl
    have := ex3.same (float_again _ _)
    cases this
    exact ⟨rfl, rfl⟩
  unfold foldUnary at h3
  split at h3
  · obtain ⟨rfl, rfl⟩ := hi rfl
    cases h3; cases h2
    exact ⟨nx, int_again _ _⟩
  · obtain ⟨rfl, rfl⟩ := hf rfl
    cases h3; cases h2
    exact ⟨nx, float_again _ _⟩
  · obtain ⟨rfl, rfl⟩ := hi rfl
    cases h3; cases h2
    exact ⟨nx, int_again _ _⟩
  · obtain ⟨rfl, rfl⟩ := hf rfl
    cases h3; cases h2
    refine ⟨nx, ?_⟩
    have hty : ∀ f : LitFloat, f.ty = f.neg.ty := fun f => by cases f <;> rfl
    rw [hty]
    exact float_again _ _
  · simp [NumOf] at nx
    simp at hs
    rw [Option.isSome_iff_ne_none] at nx
    exact absurd hs.1 nx
  · simp [NumOf] at nx
    simp [nx] at hs
  · cases h2
    simp at h3
    exact stays h3.symm
  · cases h3
  · cases h3
  · cases h3; exact stays rfl

/-- A finished condition is found again. -/
def AgainCond (C : Ctx) (L : Loc) (c' : Expr) (st st' : LState) : Prop :=
  ∃ N, ∀ n ≥ N, finishCondition (Expr.finish C L n) c' st = ⟨c', st', .ok (some (.builtIn .bool))⟩

theorem cond_again {n : Nat} (h : Again C L (Expr.finish C L n)) {c c' : Expr} {st st' : LState} {t : Option Ty}
    (hn : numeral c ≠ some true) (hs : steady c = true)
    (he : finishCondition (Expr.finish C L n) c st = ⟨c', st', .ok t⟩) : AgainCond C L c' st st' := by
  obtain ⟨⟨c1, s1, rl⟩, h1⟩ : ∃ o, Expr.finish C L n c st = o := ⟨_, rfl⟩
  simp only [finishCondition, h1] at he
  rcases rl with rl | ct
  · cases he
  obtain ⟨nc, ec⟩ := h _ _ _ _ _ hs h1
  obtain ⟨_, N, hN⟩ := ec
  dsimp only at he
  split at he
  · rename_i hb
    cases he
    have hnf : ∀ f, c1 ≠ .lit (.float f) := by
      rintro f rfl
      exact hn nc
    have key : Ev C L (.bin c1 .neq (.lit (.int ⟨0, none⟩))) st
        ⟨.bin c1 .neq (.lit (.int ⟨0, none⟩)), st', .ok (some (.builtIn .bool))⟩ := by
      refine .step (by simp) (N + 1) fun k hk => ?_
      obtain ⟨j, rfl⟩ : ∃ j, k = j + 1 := ⟨k - 1, by omega⟩
      have hz : Expr.finish C L (j + 1) (.lit (.int ⟨0, none⟩)) st' = ⟨.lit (.int ⟨0, none⟩), st', .ok none⟩ := rfl
      have he : binaryEffects .neq c1 (.lit (.int ⟨0, none⟩)) st' = (st', .ok ()) := rfl
      have ha : adjustOperands .neq c1 (.lit (.int ⟨0, none⟩)) ct none = (c1, .lit (.int ⟨0, none⟩), ct, none) := by
        rw [adjustOperands.eq_def]
        split
        · simp_all
        · exact absurd rfl (hnf _)
        · simp_all
        · rfl
        · rfl
      have hf : foldBinary .neq c1 (.lit (.int ⟨0, none⟩)) = none := by
        rw [foldBinary.eq_def]
        split
        · rfl
        · simp_all
        · rfl
      simp only [finishStep, hN (j + 1) (by omega), hz, he, ha, hf]
      rfl
    obtain ⟨_, M, hM⟩ := key
    exact ⟨M, fun k hk => by
      simp only [finishCondition, hM k hk]
      rfl⟩
  · rename_i hb
    cases he
    exact ⟨N, fun k hk => by
      simp only [finishCondition, hN k hk]
      rw [if_neg hb]⟩

theorem ternary_again {n : Nat} (h : Again C L (Expr.finish C L n)) {c x y e' : Expr} {st st' : LState} {t : Option Ty}
    (hs : steady (.ternary c x y) = true)
    (he : finishStep C L (Expr.finish C L n) (.ternary c x y) st = ⟨e', st', .ok t⟩) :
    NumOf (.ternary c x y) e' ∧ Ev C L e' st ⟨e', st', .ok t⟩ := by
  simp only [steady, Bool.and_eq_true, bne_iff_ne] at hs
  obtain ⟨⟨⟨hn, hc⟩, hx⟩, hy⟩ := hs
  obtain ⟨⟨c1, s1, rc⟩, h1⟩ : ∃ o, finishCondition (Expr.finish C L n) c st = o := ⟨_, rfl⟩
  simp only [finishStep, h1] at he
  rcases rc with rc | rc
  · cases he
  obtain ⟨⟨x1, s2, rx⟩, h2⟩ : ∃ o, Expr.finish C L n x s1 = o := ⟨_, rfl⟩
  simp only [h2] at he
  rcases rx with rx | xt
  · cases he
  obtain ⟨⟨y1, s3, ry⟩, h3⟩ : ∃ o, Expr.finish C L n y s2 = o := ⟨_, rfl⟩
  simp only [h3] at he
  rcases ry with ry | yt
  · cases he
  cases he
  obtain ⟨A, hA⟩ := cond_again h hn hc h1
  obtain ⟨_, _, M, hM⟩ := h _ _ _ _ _ hx h2
  obtain ⟨_, _, N, hN⟩ := h _ _ _ _ _ hy h3
  exact ⟨trivial, .step (by simp) (max A (max M N)) fun k hk => by
    simp only [finishStep, hA k (by omega), hM k (by omega), hN k (by omega)]⟩

theorem cast_again {n : Nat} (hC : Settled C) (h : Again C L (Expr.finish C L n)) {ty : Ty} {x e' : Expr} {st st' : LState} {t : Option Ty}
    (hs : steady (.cast ty x) = true)
    (he : finishStep C L (Expr.finish C L n) (.cast ty x) st = ⟨e', st', .ok t⟩) :
    NumOf (.cast ty x) e' ∧ Ev C L e' st ⟨e', st', .ok t⟩ := by
  simp only [steady, Bool.and_eq_true] at hs
  obtain ⟨⟨hty, hd⟩, hx⟩ := hs
  have hd := noDeref_all x hd
  obtain ⟨⟨u, s, r⟩, h1⟩ : ∃ o, ty.finish C st = o := ⟨_, rfl⟩
  simp only [finishStep, h1] at he
  rcases r with r | r
  · simp only [castAsProduct_nd hd] at he
    split at he <;> first | contradiction | cases he
  obtain ⟨rfl, rfl, hu⟩ := finish_fixed hC _ _ _ _ _ hty h1
  have hd1 := finish_nd (C := C) (L := L) n x s hd
  obtain ⟨⟨x1, s1, rx⟩, h2⟩ : ∃ o, Expr.finish C L n x s = o := ⟨_, rfl⟩
  rw [h2] at hd1
  simp only [h2] at he
  rcases rx with rx | xt
  · simp only [castAsProduct_nd hd1] at he
    split at he <;> first | contradiction | cases he
  simp only [hu.cast] at he
  obtain ⟨_, ex⟩ := h _ _ _ _ _ hx h2
  split at he
  · rename_i hstr
    have : ∃ bs, x1 = .lit (.string (.ordinary bs)) := by
      unfold castOfString at hstr
      split at hstr
      · exact ⟨_, rfl⟩
      · cases hstr
    obtain ⟨bs, rfl⟩ := this
    have hl : ∀ s, Ev C L (.lit (.string (.ordinary bs))) s ⟨.lit (.string (.ordinary bs)), s, .ok (some (constPtr (.builtIn .char)))⟩ :=
      fun s => .now (by simp) fun _ => rfl
    have q := ex.same (hl _)
    cases q
    have q := (Ev.ok he).same (hl _)
    cases q
    exact ⟨trivial, hl _⟩
  · rename_i hstr
    cases he
    obtain ⟨_, N, hN⟩ := ex
    exact ⟨trivial, .step (by simp) N fun k hk => by
      simp only [finishStep, hu.finish, hN k hk, hu.cast]
      rw [if_neg hstr]⟩

theorem concat_again {n : Nat} {ps : List Expr} {e' : Expr} {st st' : LState} {t : Option Ty}
    (hs : ps.all stringPart = true)
    (he : finishStep C L (Expr.finish C L n) (.concatStr ps) st = ⟨e', st', .ok t⟩) :
    NumOf (.concatStr ps) e' ∧ Ev C L e' st ⟨e', st', .ok t⟩ := by
  obtain ⟨⟨q, s, r⟩, h1⟩ : ∃ o, finishParts (Expr.finish C L n) ps none st = o := ⟨_, rfl⟩
  simp only [finishStep, h1] at he
  rcases r with r | new
  · cases he
  have hp := fun m => finishParts_again (C := C) (L := L) (n := n) m ps _ _ _ _ _ hs h1
  by_cases hone : ∃ p, new = [p]
  · obtain ⟨p, rfl⟩ := hone
    dsimp only at he
    rcases (hp 0).2.2 p rfl with ⟨rfl, bs, rfl⟩ | ⟨hsp, t', h2, h3⟩
    · have hl : Ev C L (.lit (.string (.ordinary bs))) s ⟨.lit (.string (.ordinary bs)), s, .ok (some (constPtr (.builtIn .char)))⟩ :=
        .now (by simp) fun _ => rfl
      have q := (Ev.ok he).same hl
      cases q
      exact ⟨trivial, hl⟩
    · have q := (Ev.ok he).same (Ev.ok (h3 0))
      cases q
      refine ⟨?_, Ev.ok (h2 0)⟩
      cases e' with
      | lit l => cases l <;> first | trivial | simp [stringPart] at hsp
      | _ => trivial
  · match new, he, hp, hone with
    | [p], _, _, hone => exact absurd ⟨p, rfl⟩ hone
    | [], he, hp, _ =>
      cases he
      exact ⟨trivial, .step (by simp) 1 fun k hk => by
        obtain ⟨j, rfl⟩ : ∃ j, k = j + 1 := ⟨k - 1, by omega⟩
        simp only [finishStep, (hp j).1]⟩
    | a :: b :: l, he, hp, _ =>
      cases he
      exact ⟨trivial, .step (by simp) 1 fun k hk => by
        obtain ⟨j, rfl⟩ : ∃ j, k = j + 1 := ⟨k - 1, by omega⟩
        simp only [finishStep, (hp j).1]⟩

theorem finish_again (hC : Settled C) : ∀ n, Again C L (Expr.finish C L n)
  | 0 => fun _ _ _ _ _ _ h => by cases h
  | n + 1 => fun e st e' st' t hs he => by
    have h := finish_again hC n
    change finishStep C L (Expr.finish C L n) e st = _ at he
    cases e with
    | un => exact un_again h hs he
    | bin l op r =>
      simp only [steady, Bool.and_eq_true] at hs
      exact bin_again h hs.1 hs.2 he
    | ternary => exact ternary_again h hs he
    | cast => exact cast_again hC h hs he
    | concatStr ps =>
      simp only [steady, Bool.and_eq_true] at hs
      exact concat_again hs.1 he
    | sizeOf ty =>
      obtain ⟨⟨u, s, r⟩, h1⟩ : ∃ o, ty.finish C st = o := ⟨_, rfl⟩
      simp only [finishStep, h1] at he
      rcases r with r | r
      · cases he
      obtain ⟨rfl, rfl, hu⟩ := finish_fixed hC _ _ _ _ _ (by simpa [steady] using hs) h1
      cases he
      exact ⟨trivial, .now (by simp) fun f => by simp only [finishStep, hu.finish]⟩
    | lit l =>
      cases l with
      | char c => simp [steady] at hs
      | int i =>
        cases he
        exact ⟨rfl, int_again _ _⟩
      | float i =>
        cases he
        exact ⟨rfl, float_again _ _⟩
      | string i =>
        simp only [finishStep] at he
        injection he with h1 h2 h3
        subst h1 h2
        exact ⟨trivial, .now (by simp) fun f => by simp only [finishStep, h3]⟩
    | var name =>
      simp only [finishStep] at he
      injection he with h1 h2 h3
      subst h1
      exact ⟨trivial, .now (by simp) fun f => by simp only [finishStep, h2, h3]⟩
    | stringify name =>
      simp only [finishStep] at he
      injection he with h1 h2 h3
      subst h1
      exact ⟨trivial, .now (by simp) fun f => by simp only [finishStep, h2, h3]⟩
    | call name args =>
      simp only [finishStep] at he
      split at he
      · cases he
      rename_i hv
      obtain ⟨⟨s, r⟩, h1⟩ : ∃ o, name.finish st = o := ⟨_, rfl⟩
      simp only [h1] at he
      rcases r with r | r
      · cases he
      obtain ⟨⟨as, s2, r2⟩, h2⟩ : ∃ o, finishArgs (Expr.finish C L n) args s = o := ⟨_, rfl⟩
      simp only [h2] at he
      rcases r2 with r2 | r2
      · cases he
      simp only at he
      injection he with e1 e2 e3
      subst e1
      obtain ⟨N, hN⟩ := finishArgs_again h _ _ _ _ (by simpa [steady] using hs) h2
      exact ⟨trivial, .step (by simp) N fun k hk => by
        simp only [finishStep, h1, hN k hk, e2, e3]
        rw [if_neg hv]⟩

/-! ## Statements -/

theorem outputs_again {n : Nat} (h : Again C L (Expr.finish C L n)) : ∀ (es es' : List (Dir × RegConstraint × Expr)) (st st' : LState),
    (es.all fun o => steady o.2.2) = true → finishOutputs (Expr.finish C L n) es st = (es', st', .ok ()) →
      ∃ N, ∀ n ≥ N, finishOutputs (Expr.finish C L n) es' st = (es', st', .ok ())
  | [], _, _, _, _, he => by cases he; exact ⟨0, fun _ _ => rfl⟩
  | (d, r, e) :: es, es', st, st', hs, he => by
    simp only [List.all_cons, Bool.and_eq_true] at hs
    obtain ⟨⟨a, s, x⟩, hr⟩ : ∃ o, Expr.finish C L n e st = o := ⟨_, rfl⟩
    simp only [finishOutputs, hr] at he
    rcases x with x | x
    · cases he
    · dsimp only at he
      obtain ⟨⟨b, s', r'⟩, hr'⟩ : ∃ o, finishOutputs (Expr.finish C L n) es s = o := ⟨_, rfl⟩
      rw [hr'] at he
      cases he
      obtain ⟨_, _, N, hN⟩ := h _ _ _ _ _ hs.1 hr
      obtain ⟨M, hM⟩ := outputs_again h es _ _ _ hs.2 hr'
      exact ⟨max N M, fun n hn => by simp only [finishOutputs, hN n (by omega), hM n (by omega)]⟩

theorem inputs_again {n : Nat} (h : Again C L (Expr.finish C L n)) : ∀ (es es' : List (RegConstraint × Expr)) (st st' : LState),
    (es.all fun o => steady o.2) = true → finishInputs (Expr.finish C L n) es st = (es', st', .ok ()) →
      ∃ N, ∀ n ≥ N, finishInputs (Expr.finish C L n) es' st = (es', st', .ok ())
  | [], _, _, _, _, he => by cases he; exact ⟨0, fun _ _ => rfl⟩
  | (r, e) :: es, es', st, st', hs, he => by
    simp only [List.all_cons, Bool.and_eq_true] at hs
    obtain ⟨⟨a, s, x⟩, hr⟩ : ∃ o, Expr.finish C L n e st = o := ⟨_, rfl⟩
    simp only [finishInputs, hr] at he
    rcases x with x | x
    · cases he
    · dsimp only at he
      obtain ⟨⟨b, s', r'⟩, hr'⟩ : ∃ o, finishInputs (Expr.finish C L n) es s = o := ⟨_, rfl⟩
      rw [hr'] at he
      cases he
      obtain ⟨_, _, N, hN⟩ := h _ _ _ _ _ hs.1 hr
      obtain ⟨M, hM⟩ := inputs_again h es _ _ _ hs.2 hr'
      exact ⟨max N M, fun n hn => by simp only [finishInputs, hN n (by omega), hM n (by omega)]⟩

theorem declArgs_again (hC : Settled C) : ∀ (as as' : List (Ty × IdentExpr)) (st st' : LState),
    (as.all fun a => namedTy a.1) = true → finishDeclArgs C as st = (as', st', .ok ()) →
      st' = st ∧ ∀ s, finishDeclArgs C as' s = (as', s, .ok ())
  | [], _, _, _, _, he => by cases he; exact ⟨rfl, fun _ => rfl⟩
  | (t, x) :: as, as', st, st', hs, he => by
    simp only [List.all_cons, Bool.and_eq_true] at hs
    obtain ⟨⟨u, s, r⟩, h1⟩ : ∃ o, t.finish C st = o := ⟨_, rfl⟩
    simp only [finishDeclArgs, h1] at he
    rcases r with r | r
    · cases he
    dsimp only at he
    obtain ⟨rfl, rfl, hu⟩ := finish_fixed hC _ _ _ _ _ hs.1 h1
    obtain ⟨⟨b, s', r'⟩, hr'⟩ : ∃ o, finishDeclArgs C as s = o := ⟨_, rfl⟩
    rw [hr'] at he
    cases he
    obtain ⟨rfl, ih⟩ := declArgs_again hC as _ _ _ hs.2 hr'
    exact ⟨rfl, fun s => by simp only [finishDeclArgs, hu.finish, ih]⟩

mutual
theorem stmt_again {n : Nat} (hC : Settled C) (h : Again C L (Expr.finish C L n)) : ∀ (s s' : Stmt) (st st' : LState),
    steadyStmt s = true → Stmt.finish C (Expr.finish C L n) s st = (s', st', .ok ()) →
      ∃ N, ∀ n ≥ N, Stmt.finish C (Expr.finish C L n) s' st = (s', st', .ok ())
  | .expr e, s', st, st', hs, he => by
    obtain ⟨⟨a, s, x⟩, hr⟩ : ∃ o, Expr.finish C L n e st = o := ⟨_, rfl⟩
    simp only [Stmt.finish, hr] at he
    rcases x with x | x
    · cases he
    · cases he
      obtain ⟨_, _, N, hN⟩ := h _ _ _ _ _ (by simpa [steadyStmt] using hs) hr
      exact ⟨N, fun n hn => by simp only [Stmt.finish, hN n hn]⟩
  | .asm a, s', st, st', hs, he => by
    simp only [steadyStmt, Bool.and_eq_true] at hs
    obtain ⟨⟨os, s, x⟩, h1⟩ : ∃ o, finishOutputs (Expr.finish C L n) a.outputs st = o := ⟨_, rfl⟩
    simp only [Stmt.finish, Asm.finish, h1] at he
    rcases x with x | x
    · cases he
    obtain ⟨⟨is, s2, x2⟩, h2⟩ : ∃ o, finishInputs (Expr.finish C L n) a.inputs s = o := ⟨_, rfl⟩
    simp only [h2] at he
    rcases x2 with x2 | x2
    · cases he
    obtain ⟨N, hN⟩ := outputs_again h _ _ _ _ hs.1 h1
    obtain ⟨M, hM⟩ := inputs_again h _ _ _ _ hs.2 h2
    simp only [Prod.mk.injEq, and_true] at he
    obtain ⟨rfl, rfl⟩ := he
    exact ⟨max N M, fun n hn => by
      simp only [Stmt.finish, Asm.finish, hN n (by omega), hM n (by omega), Asm.isGlobal]
      rfl⟩
  | .fnDecl d, s', st, st', hs, he => by
    simp only [steadyStmt, Bool.and_eq_true] at hs
    obtain ⟨⟨u, s, r⟩, h1⟩ : ∃ o, d.retTy.finish C st = o := ⟨_, rfl⟩
    simp only [Stmt.finish, FunctionDecl.finish, h1] at he
    rcases r with r | r
    · cases he
    obtain ⟨rfl, rfl, hu⟩ := finish_fixed hC _ _ _ _ _ hs.1 h1
    have fin : ∀ s1, (match finishDeclArgs C d.args s1 with
        | (as, st, x) => ((.fnDecl { d with retTy := u, args := as } : Stmt), st, x)) = (s', st', .ok ()) →
        s1 = st' ∧ ∃ as, s' = .fnDecl { d with retTy := u, args := as } ∧ ∀ s, finishDeclArgs C as s = (as, s, .ok ()) := by
      intro s1 hq
      obtain ⟨⟨as, s2, x⟩, h2⟩ : ∃ o, finishDeclArgs C d.args s1 = o := ⟨_, rfl⟩
      rw [h2] at hq
      cases hq
      obtain ⟨rfl, ih⟩ := declArgs_again hC _ _ _ _ hs.2 h2
      exact ⟨rfl, as, rfl, ih⟩
    obtain ⟨ty, name, args⟩ := d
    cases name with
    | arg i =>
      dsimp only at he fin
      rcases hi : s.argTy i with _ | a
      · simp only [hi] at he; cases he
      · simp only [hi] at he
        obtain ⟨rfl, as, rfl, ih⟩ := fin _ he
        exact ⟨0, fun n _ => by simp only [Stmt.finish, FunctionDecl.finish, hu.finish, hi, ih]⟩
    | plain id =>
      dsimp only at he fin
      obtain ⟨rfl, as, rfl, ih⟩ := fin _ he
      exact ⟨0, fun n _ => by simp only [Stmt.finish, FunctionDecl.finish, hu.finish, ih]⟩
    | concat ids =>
      dsimp only at he fin
      obtain ⟨rfl, as, rfl, ih⟩ := fin _ he
      exact ⟨0, fun n _ => by simp only [Stmt.finish, FunctionDecl.finish, hu.finish, ih]⟩
  | .varDecl d, s', st, st', hs, he => by
    simp only [steadyStmt, Bool.and_eq_true] at hs
    obtain ⟨⟨u, s, r⟩, h1⟩ : ∃ o, d.ty.finish C st = o := ⟨_, rfl⟩
    simp only [Stmt.finish, VarDecl.finish, h1] at he
    rcases r with r | r
    · cases he
    obtain ⟨rfl, rfl, hu⟩ := finish_fixed hC _ _ _ _ _ hs.1 h1
    obtain ⟨⟨s1, r1⟩, h2⟩ : ∃ o, d.name.finish s = o := ⟨_, rfl⟩
    simp only [h2] at he
    rcases r1 with r1 | r1
    · cases he
    obtain ⟨⟨e, s2, r2⟩, h3⟩ : ∃ o, Expr.finish C L n d.rhs s1 = o := ⟨_, rfl⟩
    simp only [h3] at he
    rcases r2 with r2 | r2
    · cases he
    cases he
    obtain ⟨_, _, N, hN⟩ := h _ _ _ _ _ hs.2 h3
    exact ⟨N, fun n hn => by simp only [Stmt.finish, VarDecl.finish, hu.finish, h2, hN n hn]⟩
  | .block ss, s', st, st', hs, he => by
    obtain ⟨⟨a, s, x⟩, h1⟩ : ∃ o, Stmt.finishL C (Expr.finish C L n) ss st = o := ⟨_, rfl⟩
    simp only [Stmt.finish, h1] at he
    cases he
    simp only [steadyStmt] at hs
    obtain ⟨N, hN⟩ := stmts_again hC h ss _ _ _ hs h1
    exact ⟨N, fun n hn => by simp only [Stmt.finish, hN n hn]⟩
  | .ite c t u, s', st, st', hs, he => by
    simp only [steadyStmt, steadyCond, Bool.and_eq_true, bne_iff_ne] at hs
    obtain ⟨⟨⟨hn, hc⟩, ht⟩, hu⟩ := hs
    obtain ⟨⟨c1, s1, x⟩, h1⟩ : ∃ o, finishCondition (Expr.finish C L n) c st = o := ⟨_, rfl⟩
    simp only [Stmt.finish, h1] at he
    rcases x with x | x
    · cases he
    obtain ⟨⟨t1, s2, x2⟩, h2⟩ : ∃ o, Stmt.finishL C (Expr.finish C L n) t s1 = o := ⟨_, rfl⟩
    simp only [h2] at he
    rcases x2 with x2 | ⟨⟩
    · cases he
    obtain ⟨⟨u1, s3, x3⟩, h3⟩ : ∃ o, Stmt.finishL C (Expr.finish C L n) u s2 = o := ⟨_, rfl⟩
    simp only [h3] at he
    cases he
    obtain ⟨A, hA⟩ := cond_again h hn hc h1
    obtain ⟨M, hM⟩ := stmts_again hC h t _ _ _ ht h2
    obtain ⟨N, hN⟩ := stmts_again hC h u _ _ _ hu h3
    exact ⟨max A (max M N), fun n hn => by
      simp only [Stmt.finish, hA n (by omega), hM n (by omega), hN n (by omega)]⟩
  | .doWhile b c, s', st, st', hs, he => by
    simp only [steadyStmt, steadyCond, Bool.and_eq_true, bne_iff_ne] at hs
    obtain ⟨hb, hn, hc⟩ := hs
    obtain ⟨⟨b1, s1, x⟩, h1⟩ : ∃ o, Stmt.finishL C (Expr.finish C L n) b st = o := ⟨_, rfl⟩
    simp only [Stmt.finish, h1] at he
    rcases x with x | ⟨⟩
    · cases he
    obtain ⟨⟨c1, s2, x2⟩, h2⟩ : ∃ o, finishCondition (Expr.finish C L n) c s1 = o := ⟨_, rfl⟩
    simp only [h2] at he
    rcases x2 with x2 | x2
    · cases he
    cases he
    obtain ⟨M, hM⟩ := stmts_again hC h b _ _ _ hb h1
    obtain ⟨A, hA⟩ := cond_again h hn hc h2
    exact ⟨max A M, fun n hn => by
      simp only [Stmt.finish, hA n (by omega), hM n (by omega)]⟩
theorem stmts_again {n : Nat} (hC : Settled C) (h : Again C L (Expr.finish C L n)) : ∀ (s s' : List Stmt) (st st' : LState),
    steadyStmts s = true → Stmt.finishL C (Expr.finish C L n) s st = (s', st', .ok ()) →
      ∃ N, ∀ n ≥ N, Stmt.finishL C (Expr.finish C L n) s' st = (s', st', .ok ())
  | [], _, _, _, _, he => by cases he; exact ⟨0, fun _ _ => rfl⟩
  | x :: xs, s', st, st', hs, he => by
    simp only [steadyStmts, Bool.and_eq_true] at hs
    obtain ⟨⟨a, s, r⟩, h1⟩ : ∃ o, Stmt.finish C (Expr.finish C L n) x st = o := ⟨_, rfl⟩
    simp only [Stmt.finishL, h1] at he
    rcases r with r | ⟨⟩
    · cases he
    obtain ⟨⟨as, s2, r2⟩, h2⟩ : ∃ o, Stmt.finishL C (Expr.finish C L n) xs s = o := ⟨_, rfl⟩
    simp only [h2] at he
    cases he
    obtain ⟨M, hM⟩ := stmt_again hC h x _ _ _ hs.1 h1
    obtain ⟨N, hN⟩ := stmts_again hC h xs _ _ _ hs.2 h2
    exact ⟨max M N, fun n hn => by simp only [Stmt.finishL, hM n (by omega), hN n (by omega)]⟩
end

theorem body_again {n : Nat} (hC : Settled C) (b b' : MacroBody) (st st' : LState) (t : Option Ty)
    (hs : steadyBody b = true) (he : b.finish C (Expr.finish C L n) st = ⟨b', st', .ok t⟩) :
    ∃ N, ∀ n ≥ N, b'.finish C (Expr.finish C L n) st = ⟨b', st', .ok t⟩ := by
  have h := finish_again (L := L) hC n
  cases b with
  | expr e =>
    obtain ⟨⟨a, s, r⟩, h1⟩ : ∃ o, Expr.finish C L n e st = o := ⟨_, rfl⟩
    simp only [MacroBody.finish, h1] at he
    cases he
    obtain ⟨_, _, N, hN⟩ := h _ _ _ _ _ hs h1
    exact ⟨N, fun n hn => by simp only [MacroBody.finish, hN n hn]⟩
  | stmt s =>
    obtain ⟨⟨a, s1, r⟩, h1⟩ : ∃ o, Stmt.finish C (Expr.finish C L n) s st = o := ⟨_, rfl⟩
    simp only [MacroBody.finish, h1] at he
    rcases r with r | ⟨⟩
    · cases he
    cases he
    obtain ⟨N, hN⟩ := stmt_again hC h s _ _ _ hs h1
    exact ⟨N, fun n hn => by simp only [MacroBody.finish, hN n hn]⟩

end

end CMacro
