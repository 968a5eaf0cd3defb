import Verif.Proofs.Hygiene
import Verif.Spec.Consult

/-!
# What is asked of the user of the crate
-/

namespace CMacro
open Spec

open Classical in
/-- A user that says nothing about other names. -/
noncomputable def Ctx.mask (N : Str → Prop) (m : Str) (ps : List Str) (C : Ctx) : Ctx :=
  { C with
    macroArgTy := fun n p => if n = m ∧ p ∈ ps then C.macroArgTy n p else none
    resolveEnumVariant := fun x => if N x then C.resolveEnumVariant x else none
    resolveTy := fun x => if N x then C.resolveTy x else none
    resolveFieldTy := fun T x => if N x then C.resolveFieldTy T x else none
    function := fun x => if N x then C.function x else none }

section
variable {N : Str → Prop} {m : Str} {ps : List Str} {C : Ctx} {L : Loc}

theorem mask_same {D : Ctx} (h : SameOn N m ps C D) : C.mask N m ps = D.mask N m ps := by
  obtain ⟨h1, h2, h3, h4, h5, h6, h7, h8, h9, h10, h11, h12⟩ := h
  cases C; cases D
  simp only at h1 h2 h3 h4 h5 h6 h7 h8 h9 h10 h11 h12
  subst h1 h2 h3 h4 h5 h6 h7
  unfold Ctx.mask
  congr 1
  · funext n p
    by_cases hp : n = m ∧ p ∈ ps
    · obtain ⟨rfl, hp⟩ := hp
      simp [hp, h8 p hp]
    · simp [hp]
  · funext x; by_cases hx : N x <;> simp [hx]; exact h9 x hx
  · funext x; by_cases hx : N x <;> simp [hx]; exact h10 x hx
  · funext T x; by_cases hx : N x <;> simp [hx]; exact h11 T x hx
  · funext x; by_cases hx : N x <;> simp [hx]; exact h12 x hx

theorem mask_variant {x : Str} (h : N x) : (C.mask N m ps).resolveEnumVariant x = C.resolveEnumVariant x := by simp [Ctx.mask, h]
theorem mask_ty {x : Str} (h : N x) : (C.mask N m ps).resolveTy x = C.resolveTy x := by simp [Ctx.mask, h]
theorem mask_field {T x : Str} (h : N x) : (C.mask N m ps).resolveFieldTy T x = C.resolveFieldTy T x := by simp [Ctx.mask, h]
theorem mask_function {x : Str} (h : N x) : (C.mask N m ps).function x = C.function x := by simp [Ctx.mask, h]
theorem mask_ffi : (C.mask N m ps).ffiPrefix = C.ffiPrefix := rfl

/-- Counting is enough. -/
theorem words_zero {ls : List Leaf} : Words N ls ↔ ∀ x, ¬ N x → leafCount x [] ls = 0 := by
  constructor
  · intro h x hx
    exact name_zero.2 fun hm => hx (h x hm)
  · intro h x hm
    apply Classical.byContradiction
    intro hx
    exact name_zero.1 (h x hx) hm

theorem words_lit (l : Lit) : Words N (exprLeaves (.lit l)) := words_zero.2 fun _ _ => by rw [exprLeaves]; exact lc_lit _

/-- The masked user mentions only names in `N`. -/
theorem unbuilt_mask (hw : N c!"wchar_t") (ha : ∀ x t, N x → C.resolveTy x = some t → ∀ y ∈ rtyWords t, N y) {y : Str} (hy : ¬ N y) :
    Unbuilt (C.mask N m ps) y where
  types := by
    intro id t ht hm
    by_cases hi : N id
    · rw [mask_ty hi] at ht; exact hy (ha id t hi ht y hm)
    · simp [Ctx.mask, hi] at ht
  wchar := by rintro rfl; exact hy hw

/-- Finishing keeps within the names. -/
def KeepsWords (N : Str → Prop) (f : Expr → LState → Fin Expr) : Prop := ∀ w, ¬ N w → KeepsCount w [] f

/-- The same, on expressions within the names. -/
def SameFin (N : Str → Prop) (f g : Expr → LState → Fin Expr) : Prop := ∀ e st, Words N (exprLeaves e) → f e st = g e st

theorem KeepsWords.keep {g : Expr → LState → Fin Expr} (h : KeepsWords N g) {e : Expr} {st : LState} (he : Words N (exprLeaves e)) :
    Words N (exprLeaves (g e st).tree) :=
  words_zero.2 fun x hx => keepsZero (h x hx) e st (words_zero.1 he x hx)

theorem ty_same : ∀ {t : Ty} {st : LState}, Words N (tyLeaves t) → t.finish C st = t.finish (C.mask N m ps) st
  | .builtIn _, _, _ => rfl
  | .ident name s, st, h => by
    cases name with
    | plain id =>
      have : N id := h id (by simp [tyLeaves, nameLeaves])
      simp only [Ty.finish, mask_ty this, mask_ffi]
    | arg i => rfl
    | concat ids => simp only [Ty.finish]
  | .path _ _, _, _ => rfl
  | .ptr t, st, h => by
    have := ty_same (t := t) (st := st) h
    simp only [Ty.finish, this]
  | .qualified t q, st, h => by
    have := ty_same (t := t) (st := st) h
    simp only [Ty.finish, this]

theorem wchar_same (hw : N c!"wchar_t") (st : LState) : finishWchar C st = finishWchar (C.mask N m ps) st := by
  unfold finishWchar
  rw [ty_same (N := N) (m := m) (ps := ps)]
  rintro x hx
  simp only [wcharTy, tyLeaves, nameLeaves, List.mem_singleton, Leaf.name.injEq] at hx
  subst hx; exact hw

theorem lit_same (hw : N c!"wchar_t") (l : Lit) (st : LState) : l.finish C st = l.finish (C.mask N m ps) st := by
  cases l with
  | char c => cases c <;> simp only [Lit.finish, LitChar.finish]; rw [wchar_same hw]
  | string s => cases s <;> simp only [Lit.finish, LitString.finish]; rw [wchar_same hw]
  | _ => rfl

theorem char_same (hw : N c!"wchar_t") (c : LitChar) (st : LState) : c.finish C st = c.finish (C.mask N m ps) st := by
  cases c <;> simp only [LitChar.finish]; rw [wchar_same hw]

theorem var_same {n : IdentExpr} {st : LState} (h : Words N (nameLeaves n)) : finishVar C n st = finishVar (C.mask N m ps) n st := by
  cases n with
  | plain id =>
    have : N id := h id (by simp [nameLeaves])
    simp only [finishVar, mask_variant this, mask_ffi]
  | _ => rfl

theorem inferArgs_same : ∀ (es : List Expr) (ts : List RTy) (st : LState), inferArgs C es ts st = inferArgs (C.mask N m ps) es ts st
  | [], _, _ => rfl
  | _ :: _, [], _ => rfl
  | a :: as, t :: ts, st => by
    simp only [inferArgs, mask_ffi, inferArgs_same as ts]

theorem callee_same {n : IdentExpr} {as : List Expr} {st : LState} (h : Words N (nameLeaves n)) :
    finishCallee C n as st = finishCallee (C.mask N m ps) n as st := by
  cases n with
  | plain id =>
    have : N id := h id (by simp [nameLeaves])
    simp only [finishCallee, mask_function this, mask_ffi, inferArgs_same (C := C) (N := N) (m := m) (ps := ps)]
  | _ => rfl

theorem member_same {t : Option Ty} {r : Expr} (h : Words N (exprLeaves r)) : memberTy C t r = memberTy (C.mask N m ps) t r := by
  unfold memberTy
  split
  · rename_i f
    have : N f := h f (by simp [exprLeaves, nameLeaves])
    simp only [mask_field this, mask_ffi]
  · rfl

theorem castBin_same {t : Ty} {x : Expr} (h : Words N (tyLeaves t)) : castAsBinary C t x = castAsBinary (C.mask N m ps) t x := by
  unfold castAsBinary
  split
  · rename_i n op e
    have : treatAsBinop C n = treatAsBinop (C.mask N m ps) n := by
      cases n with
      | plain id =>
        have : N id := h id (by simp [tyLeaves, nameLeaves])
        simp only [treatAsBinop, mask_ty this]
      | _ => rfl
    rw [this]
  · rfl

theorem foldUnary_same (op : UnOp) (e : Expr) (t : Option Ty) : foldUnary C op e t = foldUnary (C.mask N m ps) op e t := rfl

variable {f g : Expr → LState → Fin Expr}

theorem args_same (h : SameFin N f g) : ∀ {es : List Expr} {st : LState}, Words N (exprsLeaves es) → finishArgs f es st = finishArgs g es st
  | [], _, _ => rfl
  | e :: es, st, hw => by
    rw [exprsLeaves, words_app] at hw
    simp only [finishArgs, h e st hw.1]
    generalize g e st = R
    rcases R with ⟨x, s, r | r⟩
    · rfl
    · simp only [args_same h hw.2]

theorem parts_same (h : SameFin N f g) : ∀ {es : List Expr} {cur : Option (List UInt8)} {st : LState}, Words N (exprsLeaves es) →
    finishParts f es cur st = finishParts g es cur st
  | [], _, _, _ => rfl
  | e :: es, cur, st, hw => by
    rw [exprsLeaves, words_app] at hw
    simp only [finishParts, h e st hw.1]
    generalize g e st = R
    rcases R with ⟨x, s, r | r⟩
    · rfl
    · simp only [parts_same h hw.2]

theorem condition_same (h : SameFin N f g) : SameFin N (finishCondition f) (finishCondition g) := by
  intro e st hw
  simp only [finishCondition, h e st hw]

theorem KeepsWords.condition (h : KeepsWords N g) : KeepsWords N (finishCondition g) := fun w hw => finishCondition_count (h w hw)

theorem ty_words (hw : N c!"wchar_t") (ha : ∀ x t, N x → C.resolveTy x = some t → ∀ y ∈ rtyWords t, N y) {t : Ty} {st : LState}
    (h : Words N (tyLeaves t)) : Words N (tyLeaves (t.finish (C.mask N m ps) st).tree) :=
  words_zero.2 fun x hx => (ty_finish_count (unbuilt_mask hw ha hx) t st).1 (words_zero.1 h x hx)

theorem product_words {t : Ty} {x e : Expr} (h : castAsProduct t x = some e) (ht : Words N (tyLeaves t)) (hx : Words N (exprLeaves x)) :
    Words N (exprLeaves e) := by
  have hc : Words N (exprLeaves (.cast t x)) := by rw [exprLeaves, words_app]; exact ⟨ht, hx⟩
  exact words_zero.2 fun y hy => (castAsProduct_count h (exprOnce_zero (words_zero.1 hc y hy))).2.trans (words_zero.1 hc y hy)

theorem binary_words {D : Ctx} {t : Ty} {x e : Expr} (h : castAsBinary D t x = some e) (ht : Words N (tyLeaves t)) (hx : Words N (exprLeaves x)) :
    Words N (exprLeaves e) := by
  have hc : Words N (exprLeaves (.cast t x)) := by rw [exprLeaves, words_app]; exact ⟨ht, hx⟩
  exact words_zero.2 fun y hy => (castAsBinary_count h (exprOnce_zero (words_zero.1 hc y hy))).2.trans (words_zero.1 hc y hy)

theorem parts_words (h : KeepsWords N g) {es new : List Expr} {st : LState} (hw : Words N (exprsLeaves es))
    (hn : (finishParts g es none st).2.2 = .ok new) : Words N (exprsLeaves new) :=
  words_zero.2 fun y hy => by
    have hz := words_zero.1 hw y hy
    exact ((finishParts_count (h y hy) es none st (by
      have := exprOnce_zero (w := y) (ps := []) (e := .concatStr es) (by rw [exprLeaves]; exact hz)
      rwa [ExprOnce] at this)).2 new hn).2.trans hz

theorem adjust_words (op : BinOp) {l r : Expr} (lt rt : Option Ty) (hl : Words N (exprLeaves l)) (hr : Words N (exprLeaves r)) :
    Words N (exprLeaves (adjustOperands op l r lt rt).2.1) :=
  words_zero.2 fun y hy => by
    have h1 := words_zero.1 hl y hy
    have h2 := words_zero.1 hr y hy
    exact (adjustOperands_count op lt rt (exprOnce_zero h1) (exprOnce_zero h2)).2.2.trans h2

theorem fold_words {op : BinOp} {l r e : Expr} (h : foldBinary op l r = some (.ok e)) : Words N (exprLeaves e) :=
  words_zero.2 fun _ _ => (foldBinary_count h).2.1

theorem step_same (hw : N c!"wchar_t") (ha : ∀ x t, N x → C.resolveTy x = some t → ∀ y ∈ rtyWords t, N y) (h : SameFin N f g)
    (k : KeepsWords N g) : SameFin N (finishStep C L f) (finishStep (C.mask N m ps) L g) := by
  intro e st he
  cases e with
  | var n =>
    rw [exprLeaves] at he
    simp only [finishStep, var_same (C := C) (m := m) (ps := ps) he]
  | stringify n => rfl
  | sizeOf t =>
    rw [exprLeaves] at he
    simp only [finishStep, ty_same (C := C) (m := m) (ps := ps) he]
  | lit l =>
    cases l with
    | char c => simp only [finishStep, char_same (C := C) (m := m) (ps := ps) hw]
    | string s => simp only [finishStep, lit_same (C := C) (m := m) (ps := ps) hw]
    | float s => rfl
    | int s => rfl
  | cast t x =>
    rw [exprLeaves, words_app] at he
    have ht := ty_words (C := C) (m := m) (ps := ps) hw ha (st := st) he.1
    simp only [finishStep, ty_same (C := C) (m := m) (ps := ps) he.1]
    generalize t.finish (C.mask N m ps) st = R at *
    rcases R with ⟨t', s, r | r⟩
    · simp only at ht ⊢
      split
      · rename_i e _ hc
        exact h e s (product_words hc ht he.2)
      · rfl
    · simp only at ht ⊢
      have hx := k.keep (st := s) he.2
      rw [h x s he.2]
      generalize g x s = R at *
      rcases R with ⟨x', s', r | r⟩
      · simp only at hx ⊢
        split
        · rename_i e _ hc
          exact h e s' (product_words hc ht hx)
        · rfl
      · simp only at hx ⊢
        rw [castBin_same (C := C) (m := m) (ps := ps) ht]
        split
        · rename_i e hc
          exact h e s' (binary_words hc ht hx)
        · split
          · exact h x' s' hx
          · rfl
  | call n as =>
    rw [exprLeaves, words_app] at he
    simp only [finishStep, args_same h he.2, callee_same (C := C) (m := m) (ps := ps) he.1]
  | concatStr parts =>
    rw [exprLeaves] at he
    simp only [finishStep, parts_same h he]
    have hp := fun new => parts_words (st := st) (new := new) k he
    generalize finishParts g parts none st = R at *
    rcases R with ⟨x, y, z | z⟩
    · rfl
    · rcases z with _ | ⟨q, _ | ⟨q', l⟩⟩
      · rfl
      · have := hp _ rfl
        rw [exprsLeaves, words_app] at this
        exact h q y this.1
      · rfl
  | un op x =>
    rw [exprLeaves] at he
    simp only [finishStep, h x st he, foldUnary_same (C := C) (N := N) (m := m) (ps := ps)]
  | ternary c t u =>
    rw [exprLeaves, words_app, words_app] at he
    simp only [finishStep, condition_same h c st he.1]
    generalize finishCondition g c st = R
    rcases R with ⟨x, s, r | r⟩
    · rfl
    · simp only [h t s he.2.1]
      generalize g t s = R
      rcases R with ⟨x, s, r | r⟩
      · rfl
      · simp only [h u s he.2.2]
  | bin l op r =>
    rw [exprLeaves, words_app] at he
    simp only [finishStep]
    rw [h l st he.1]
    have hl := k.keep (st := st) he.1
    generalize g l st = R at *
    rcases R with ⟨l', s, z | lt⟩
    · rfl
    · simp only at hl ⊢
      rw [h r s he.2]
      have hr := k.keep (st := s) he.2
      generalize g r s = R at *
      rcases R with ⟨r', s, z | rt⟩
      · rfl
      · simp only at hr ⊢
        generalize binaryEffects op l' r' s = R
        rcases R with ⟨s, z | z⟩
        · rfl
        · simp only
          have hj := adjust_words op lt rt hl hr
          generalize adjustOperands op l' r' lt rt = R at *
          rcases R with ⟨a, b, ta, tb⟩
          simp only at hj ⊢
          rw [member_same (C := C) (m := m) (ps := ps) hj]
          split
          · rfl
          · split
            · rfl
            · rename_i e hf
              exact h e s (fold_words hf)
            · rfl

theorem finish_keeps (hw : N c!"wchar_t") (ha : ∀ x t, N x → C.resolveTy x = some t → ∀ y ∈ rtyWords t, N y) (n : Nat) :
    KeepsWords N (Expr.finish (C.mask N m ps) L n) := fun _ hx => expr_finish_count (unbuilt_mask hw ha hx) n

theorem finish_same (hw : N c!"wchar_t") (ha : ∀ x t, N x → C.resolveTy x = some t → ∀ y ∈ rtyWords t, N y) :
    ∀ n, SameFin N (Expr.finish C L n) (Expr.finish (C.mask N m ps) L n)
  | 0 => fun _ _ _ => rfl
  | n + 1 => step_same hw ha (finish_same hw ha n) (finish_keeps hw ha n)

/-! ## Statements -/

theorem outputs_same (h : SameFin N f g) : ∀ {es : List (Dir × RegConstraint × Expr)} {st : LState},
    Words N (es.flatMap fun o => exprLeaves o.2.2) → finishOutputs f es st = finishOutputs g es st
  | [], _, _ => rfl
  | (d, c, e) :: es, st, hw => by
    rw [List.flatMap_cons, words_app] at hw
    simp only [finishOutputs, h e st hw.1, outputs_same h hw.2]

theorem inputs_same (h : SameFin N f g) : ∀ {es : List (RegConstraint × Expr)} {st : LState},
    Words N (es.flatMap fun o => exprLeaves o.2) → finishInputs f es st = finishInputs g es st
  | [], _, _ => rfl
  | (c, e) :: es, st, hw => by
    rw [List.flatMap_cons, words_app] at hw
    simp only [finishInputs, h e st hw.1, inputs_same h hw.2]

theorem asm_same (h : SameFin N f g) {a : Asm} {st : LState} (hw : Words N (asmLeaves a)) : a.finish f st = a.finish g st := by
  rw [asmLeaves, words_app] at hw
  simp only [Asm.finish, outputs_same h hw.1, inputs_same h hw.2]

theorem declArgs_same : ∀ {as : List (Ty × IdentExpr)} {st : LState}, Words N (as.flatMap fun a => tyLeaves a.1 ++ nameLeaves a.2) →
    finishDeclArgs C as st = finishDeclArgs (C.mask N m ps) as st
  | [], _, _ => rfl
  | (t, n) :: as, st, hw => by
    rw [List.flatMap_cons, words_app, words_app] at hw
    simp only [finishDeclArgs, ty_same (C := C) (m := m) (ps := ps) hw.1.1, declArgs_same (as := as) hw.2]

theorem fnDecl_same {d : FunctionDecl} {st : LState} (hw : Words N (stmtLeaves (.fnDecl d))) :
    d.finish C st = d.finish (C.mask N m ps) st := by
  rw [stmtLeaves, words_app, words_app] at hw
  simp only [FunctionDecl.finish, ty_same (C := C) (m := m) (ps := ps) hw.1, declArgs_same (C := C) (m := m) (ps := ps) hw.2.2]

theorem varDecl_same (h : SameFin N f g) {d : VarDecl} {st : LState} (hw : Words N (stmtLeaves (.varDecl d))) :
    d.finish C f st = d.finish (C.mask N m ps) g st := by
  rw [stmtLeaves, words_app, words_app] at hw
  simp only [VarDecl.finish, ty_same (C := C) (m := m) (ps := ps) hw.1]
  generalize d.ty.finish (C.mask N m ps) st = R
  rcases R with ⟨t, s, r | r⟩
  · rfl
  · simp only
    generalize d.name.finish s = R
    rcases R with ⟨s, r | r⟩
    · rfl
    · simp only [h d.rhs s hw.2.2]

mutual

theorem stmt_same (h : SameFin N f g) : ∀ {s : Stmt} {st : LState}, Words N (stmtLeaves s) → s.finish C f st = s.finish (C.mask N m ps) g st
  | .asm a, st, hw => by
    rw [stmtLeaves] at hw
    simp only [Stmt.finish, asm_same h hw]
  | .expr e, st, hw => by
    rw [stmtLeaves] at hw
    simp only [Stmt.finish, h e st hw]
  | .fnDecl d, st, hw => by simp only [Stmt.finish, fnDecl_same (C := C) (m := m) (ps := ps) hw]
  | .varDecl d, st, hw => by simp only [Stmt.finish, varDecl_same (C := C) (m := m) (ps := ps) h hw]
  | .block ss, st, hw => by
    rw [stmtLeaves] at hw
    simp only [Stmt.finish, stmts_same h hw]
  | .ite c t u, st, hw => by
    rw [stmtLeaves, words_app, words_app] at hw
    simp only [Stmt.finish, condition_same h c st hw.1]
    generalize finishCondition g c st = R
    rcases R with ⟨x, s, r | r⟩
    · rfl
    · simp only [stmts_same h hw.2.1, stmts_same h hw.2.2]
  | .doWhile b c, st, hw => by
    rw [stmtLeaves, words_app] at hw
    simp only [Stmt.finish, stmts_same h hw.1]
    generalize Stmt.finishL (C.mask N m ps) g b st = R
    rcases R with ⟨x, s, r | r⟩
    · rfl
    · simp only [condition_same h c s hw.2]

theorem stmts_same (h : SameFin N f g) : ∀ {ss : List Stmt} {st : LState}, Words N (stmtsLeaves ss) →
    Stmt.finishL C f ss st = Stmt.finishL (C.mask N m ps) g ss st
  | [], _, _ => by rw [Stmt.finishL, Stmt.finishL]
  | s :: ss, st, hw => by
    rw [stmtsLeaves, words_app] at hw
    simp only [Stmt.finishL, stmt_same h hw.1, stmts_same h hw.2]

end

theorem bodyFinish_mask (h : SameFin N f g) {b : MacroBody} {st : LState} (hw : Words N (bodyLeaves b)) :
    b.finish C f st = b.finish (C.mask N m ps) g st := by
  cases b with
  | expr e => simp only [MacroBody.finish, h e st hw]
  | stmt s => simp only [MacroBody.finish, stmt_same (C := C) (m := m) (ps := ps) h hw]

/-! ## Printing -/

/-- The names contain `size_t`. -/
class HasSize (N : Str → Prop) : Prop where
  size : N c!"size_t"

variable {exp : Bool} [HasSize N]

theorem rust_same (b : BuiltInType) : b.toRust C = b.toRust (C.mask N m ps) := by
  cases b with
  | sizeT => simp only [BuiltInType.toRust, mask_ty (N := N) HasSize.size]; rfl
  | _ => rfl

theorem cont_toks (c : IdentCont) : c.toks ⟨C, L, exp⟩ = c.toks ⟨C.mask N m ps, L, exp⟩ := by cases c <;> rfl

theorem name_toks (n : IdentExpr) : n.toks ⟨C, L, exp⟩ = n.toks ⟨C.mask N m ps, L, exp⟩ := by
  cases n with
  | concat ids =>
    have : (fun x : IdentCont => x.toks ⟨C, L, exp⟩) = fun x => x.toks ⟨C.mask N m ps, L, exp⟩ := funext cont_toks
    simp only [IdentExpr.toks, this]
    rfl
  | _ => rfl

theorem ty_toks : ∀ t : Ty, t.toks ⟨C, L, exp⟩ = t.toks ⟨C.mask N m ps, L, exp⟩
  | .builtIn b => by rw [Ty.toks, Ty.toks]; exact congrArg RTy.toks (rust_same b)
  | .ident n _ => by rw [Ty.toks, Ty.toks, name_toks (N := N)]
  | .path _ _ => by rw [Ty.toks, Ty.toks]
  | .ptr t => by rw [Ty.toks, Ty.toks, ty_toks t]
  | .qualified (.ptr t) q => by rw [Ty.toks, Ty.toks, ty_toks t]
  | .qualified (.builtIn b) q => by have := ty_toks (.builtIn b); simpa only [Ty.toks] using this
  | .qualified (.ident n s) q => by have := ty_toks (.ident n s); simpa only [Ty.toks] using this
  | .qualified (.path n s) q => by have := ty_toks (.path n s); simpa only [Ty.toks] using this
  | .qualified (.qualified n s) q => by have := ty_toks (.qualified n s); simpa only [Ty.toks] using this

theorem wchar_toks (hw : N c!"wchar_t") : wcharToks ⟨C, L, exp⟩ = wcharToks ⟨C.mask N m ps, L, exp⟩ := by
  simp only [wcharToks, mask_ty hw, mask_ffi, ty_toks (C := C) (N := N) (m := m) (ps := ps)]

theorem string_toks (hw : N c!"wchar_t") (b : Bool) (s : LitString) : s.toks ⟨C, L, exp⟩ b = s.toks ⟨C.mask N m ps, L, exp⟩ b := by
  cases s with
  | wide ws => simp only [LitString.toks, wchar_toks (C := C) (m := m) (ps := ps) hw]
  | _ => rfl

theorem lit_toks (hw : N c!"wchar_t") (l : Lit) : l.toks ⟨C, L, exp⟩ = l.toks ⟨C.mask N m ps, L, exp⟩ := by
  cases l with
  | string s => simp only [Lit.toks, string_toks (C := C) (m := m) (ps := ps) hw]
  | _ => rfl

theorem var_toks {n : IdentExpr} (h : Words N (nameLeaves n)) : varToks ⟨C, L, exp⟩ n = varToks ⟨C.mask N m ps, L, exp⟩ n := by
  cases n with
  | plain id =>
    have : N id := h id (by simp [nameLeaves])
    simp only [varToks, mask_variant this]
    rfl
  | arg i => rfl
  | concat ids => simp only [varToks]; exact name_toks _

theorem call_toks {n : IdentExpr} {as : List Expr} {raw : List (List RTok)} :
    callToks ⟨C, L, exp⟩ n as raw = callToks ⟨C.mask N m ps, L, exp⟩ n as raw := by
  have : ∀ b, callArgToks ⟨C, L, exp⟩ b = callArgToks ⟨C.mask N m ps, L, exp⟩ b := fun b => by
    funext a raw
    unfold callArgToks noInto argNameToks
    rfl
  simp only [callToks, name_toks n (C := C) (N := N) (m := m) (ps := ps), this]
  rfl

theorem cast_toks {t : Ty} {x : Expr} {raw : List RTok} : castToks ⟨C, L, exp⟩ t x raw = castToks ⟨C.mask N m ps, L, exp⟩ t x raw := by
  simp only [castToks, ty_toks t (C := C) (N := N) (m := m) (ps := ps)]
  rfl

theorem stringify_toks (n : IdentExpr) : stringifyInner ⟨C, L, exp⟩ n = stringifyInner ⟨C.mask N m ps, L, exp⟩ n := rfl

theorem part_toks : concatPartToks ⟨C, L, exp⟩ = concatPartToks ⟨C.mask N m ps, L, exp⟩ := rfl

theorem unary_toks {op : UnOp} {x : Expr} {raw : List RTok} {ks : List (List RTok)} :
    unaryToks ⟨C, L, exp⟩ op x raw ks = unaryToks ⟨C.mask N m ps, L, exp⟩ op x raw ks := rfl

theorem binary_toks {l r : Expr} {op : BinOp} {lt rt : List RTok} {ks : List (List RTok)} :
    binaryToks ⟨C, L, exp⟩ l op r lt rt ks = binaryToks ⟨C.mask N m ps, L, exp⟩ l op r lt rt ks := rfl

section
variable (hw : N c!"wchar_t")
include hw

mutual

theorem expr_toks : ∀ {e : Expr}, Words N (exprLeaves e) → e.toks ⟨C, L, exp⟩ = e.toks ⟨C.mask N m ps, L, exp⟩
  | .var n, h => by
    rw [exprLeaves] at h
    rw [Expr.toks, Expr.toks, var_toks h]
  | .call n as, h => by
    rw [exprLeaves, words_app] at h
    rw [Expr.toks, Expr.toks, exprs_toks h.2, call_toks (N := N)]
  | .cast ty x, h => by
    rw [exprLeaves, words_app] at h
    rw [Expr.toks, Expr.toks, expr_toks h.2, cast_toks (N := N)]
  | .lit l, _ => by rw [Expr.toks, Expr.toks, lit_toks hw]
  | .stringify n, h => by
    rw [Expr.toks, Expr.toks]
    rfl
  | .concatStr parts, h => by
    rw [exprLeaves] at h
    rw [Expr.toks, Expr.toks, exprs_toks h, part_toks (N := N)]
    rfl
  | .sizeOf ty, h => by
    rw [Expr.toks, Expr.toks, ty_toks (C := C) (N := N) (m := m) (ps := ps), rust_same (N := N) (m := m) (ps := ps)]
    rfl
  | .un op x, h => by
    rw [exprLeaves] at h
    rw [Expr.toks, Expr.toks, expr_toks h, kids_toks h, unary_toks (N := N)]
  | .bin l op r, h => by
    rw [exprLeaves, words_app] at h
    rw [Expr.toks, Expr.toks, expr_toks h.1, expr_toks h.2, kids_toks h.1, binary_toks (N := N)]
  | .ternary c t f, h => by
    rw [exprLeaves, words_app, words_app] at h
    rw [Expr.toks, Expr.toks, expr_toks h.1, expr_toks h.2.1, expr_toks h.2.2]

theorem exprs_toks : ∀ {es : List Expr}, Words N (exprsLeaves es) → Expr.toksL ⟨C, L, exp⟩ es = Expr.toksL ⟨C.mask N m ps, L, exp⟩ es
  | [], _ => by rw [Expr.toksL, Expr.toksL]
  | e :: es, h => by
    rw [exprsLeaves, words_app] at h
    rw [Expr.toksL, Expr.toksL, expr_toks h.1, exprs_toks h.2]

theorem kids_toks : ∀ {e : Expr}, Words N (exprLeaves e) → Expr.kids ⟨C, L, exp⟩ e = Expr.kids ⟨C.mask N m ps, L, exp⟩ e
  | .un _ x, h => by
    rw [exprLeaves] at h
    rw [Expr.kids, Expr.kids, expr_toks (e := x) h]
  | .bin l _ r, h => by
    rw [exprLeaves, words_app] at h
    rw [Expr.kids, Expr.kids, expr_toks (e := l) h.1, expr_toks (e := r) h.2]
  | .var _, _ => by simp only [Expr.kids]
  | .call _ _, _ => by simp only [Expr.kids]
  | .cast _ _, _ => by simp only [Expr.kids]
  | .lit _, _ => by simp only [Expr.kids]
  | .stringify _, _ => by simp only [Expr.kids]
  | .concatStr _, _ => by simp only [Expr.kids]
  | .sizeOf _, _ => by simp only [Expr.kids]
  | .ternary _ _ _, _ => by simp only [Expr.kids]

end

theorem asmToks_mask {a : Asm} (h : Words N (asmLeaves a)) : a.toks ⟨C, L, exp⟩ = a.toks ⟨C.mask N m ps, L, exp⟩ := by
  rw [asmLeaves, words_app] at h
  have ho := words_flatMap h.1
  have hi := words_flatMap h.2
  unfold Asm.toks
  split
  · rfl
  · rename_i outs ins hm
    obtain ⟨ho, hi⟩ := matchConstraints_all (p := fun e => e.toks ⟨C, L, exp⟩ = e.toks ⟨C.mask N m ps, L, exp⟩) _ _ _ hm
      (fun x hx => expr_toks hw (ho x hx)) fun x hx => expr_toks hw (hi x hx)
    have h1 : (outs.map fun (d, r, e) => d.toks ++ q!"(" ++ r.toks ++ q!")" ++ e.toks ⟨C, L, exp⟩) =
        outs.map fun (d, r, e) => d.toks ++ q!"(" ++ r.toks ++ q!")" ++ e.toks ⟨C.mask N m ps, L, exp⟩ :=
      List.map_congr_left fun ⟨d, r, e⟩ hx => by dsimp only; rw [ho _ hx]
    have h2 : (ins.map fun (r, e) => q!"in (" ++ r.toks ++ q!")" ++ e.toks ⟨C, L, exp⟩) =
        ins.map fun (r, e) => q!"in (" ++ r.toks ++ q!")" ++ e.toks ⟨C.mask N m ps, L, exp⟩ :=
      List.map_congr_left fun ⟨r, e⟩ hx => by dsimp only; rw [hi _ hx]
    dsimp only
    rw [h1, h2]
    rfl

omit hw in
theorem fnDecl_toks (d : FunctionDecl) : d.toks ⟨C, L, exp⟩ = d.toks ⟨C.mask N m ps, L, exp⟩ := by
  simp only [FunctionDecl.toks, ty_toks (C := C) (N := N) (m := m) (ps := ps), name_toks (C := C) (N := N) (m := m) (ps := ps)]

theorem varDecl_toks {d : VarDecl} (h : Words N (stmtLeaves (.varDecl d))) : d.toks ⟨C, L, exp⟩ = d.toks ⟨C.mask N m ps, L, exp⟩ := by
  rw [stmtLeaves, words_app, words_app] at h
  simp only [VarDecl.toks, ty_toks (C := C) (N := N) (m := m) (ps := ps), name_toks (C := C) (N := N) (m := m) (ps := ps),
    expr_toks (C := C) (m := m) (ps := ps) hw h.2.2]

mutual

theorem stmt_toks : ∀ {s : Stmt}, Words N (stmtLeaves s) → s.toks ⟨C, L, exp⟩ = s.toks ⟨C.mask N m ps, L, exp⟩
  | .asm a, h => by rw [Stmt.toks, Stmt.toks, asmToks_mask hw (by rwa [stmtLeaves] at h)]
  | .expr e, h => by rw [Stmt.toks, Stmt.toks, expr_toks hw (by rwa [stmtLeaves] at h)]
  | .fnDecl d, h => by rw [Stmt.toks, Stmt.toks, fnDecl_toks (N := N)]
  | .varDecl d, h => by rw [Stmt.toks, Stmt.toks, varDecl_toks hw h]
  | .block ss, h => by
    rw [stmtLeaves] at h
    rw [Stmt.toks, Stmt.toks, stmts_toks h]
  | .ite c t f, h => by
    rw [stmtLeaves, words_app, words_app] at h
    have h1 := expr_toks (C := C) (m := m) (ps := ps) (L := L) (exp := exp) hw h.1
    have h2 := stmts_toks h.2.1
    have h3 := stmts_toks h.2.2
    rw [Stmt.toks.eq_def, Stmt.toks.eq_def ⟨C.mask N m ps, L, exp⟩]
    dsimp only
    rw [h1, h2]
    cases f with
    | nil => rfl
    | cons => simp only [h3]
  | .doWhile b c, h => by
    rw [stmtLeaves, words_app] at h
    rw [Stmt.toks, Stmt.toks, stmts_toks h.1, expr_toks hw h.2]

theorem stmts_toks : ∀ {ss : List Stmt}, Words N (stmtsLeaves ss) → Stmt.toksL ⟨C, L, exp⟩ ss = Stmt.toksL ⟨C.mask N m ps, L, exp⟩ ss
  | [], _ => by rw [Stmt.toksL, Stmt.toksL]
  | s :: ss, h => by
    rw [stmtsLeaves, words_app] at h
    rw [Stmt.toksL, Stmt.toksL, stmt_toks h.1, stmts_toks h.2]

end

theorem body_toks {b : MacroBody} (h : Words N (bodyLeaves b)) : b.toks ⟨C, L, exp⟩ = b.toks ⟨C.mask N m ps, L, exp⟩ := by
  cases b with
  | expr e => exact expr_toks hw h
  | stmt s => exact stmt_toks hw h

end

/-! ## Generating -/

theorem argTypes_same : ∀ {as : List Str}, (∀ a ∈ as, a ∈ ps) → argTypes C m as = argTypes (C.mask N m ps) m as
  | [], _ => rfl
  | a :: as, h => by
    have : (C.mask N m ps).macroArgTy m a = C.macroArgTy m a := by simp [Ctx.mask, h a (by simp)]
    simp only [argTypes, this, mask_ffi, argTypes_same (as := as) fun b hb => h b (by simp [hb])]

theorem fnParams_same : ∀ (as : List Str) (ts : List ArgTy), fnParams ⟨C, L, exp⟩ as ts = fnParams ⟨C.mask N m ps, L, exp⟩ as ts
  | [], _ => by simp only [fnParams]
  | _ :: _, [] => by simp only [fnParams]
  | a :: as, t :: ts => by
    cases t <;> simp only [fnParams, fnParams_same as ts, ty_toks (C := C) (N := N) (m := m) (ps := ps)]

theorem ret_same (t : Option Ty) : retToks ⟨C, L, exp⟩ t = retToks ⟨C.mask N m ps, L, exp⟩ t := by
  cases t with
  | none => rfl
  | some t => simp only [retToks, ty_toks (C := C) (N := N) (m := m) (ps := ps)]

omit [HasSize N] in
theorem fnGenerate_mask {n : Nat} {M : FnMacro} (h : Asked C M.name M.body N) :
    M.generate n C = M.generate n (C.mask N M.name M.args) := by
  have hw := h.wide
  have : HasSize N := ⟨h.size⟩
  have hf := fun st => bodyFinish_mask (C := C) (m := M.name) (ps := M.args)
    (finish_same (m := M.name) (ps := M.args) (L := fnLoc M.args) hw h.answers n) (b := M.body) (st := st) h.body
  unfold FnMacro.generate
  rw [argTypes_same (N := N) (ps := M.args) fun _ h => h]
  generalize argTypes (C.mask N M.name M.args) M.name M.args = R
  rcases R with z | tys
  · rfl
  · dsimp only
    rw [hf]
    have hk : Words N (bodyLeaves (M.body.finish (C.mask N M.name M.args) (Expr.finish (C.mask N M.name M.args) (fnLoc M.args) n) ⟨tys, false⟩).1) :=
      words_zero.2 fun x hx => body_zero (unbuilt_mask hw h.answers hx) (finish_keeps hw h.answers n x hx) _ _ (words_zero.1 h.body x hx)
    generalize M.body.finish (C.mask N M.name M.args) (Expr.finish (C.mask N M.name M.args) (fnLoc M.args) n) ⟨tys, false⟩ = R at *
    rcases R with ⟨b, st, z | r⟩
    · rfl
    · dsimp only at hk ⊢
      rw [mask_function h.self]
      simp only [body_toks (C := C) (m := M.name) (ps := M.args) hw hk, fnParams_same (C := C) (N := N) (m := M.name) (ps := M.args),
        ret_same (C := C) (N := N) (m := M.name) (ps := M.args)]
      rfl

omit [HasSize N] in
theorem varGenerate_mask {n : Nat} {M : VarMacro} (h : Asked C M.name M.body N) :
    M.generate n C = M.generate n (C.mask N M.name []) := by
  have hw := h.wide
  have : HasSize N := ⟨h.size⟩
  unfold VarMacro.generate
  cases hb : M.body with
  | stmt s => rfl
  | expr e =>
    have he : Words N (exprLeaves e) := by have := h.body; rw [hb] at this; exact this
    dsimp only
    rw [finish_same (m := M.name) (ps := []) hw h.answers n e .init he]
    have hk := (finish_keeps (C := C) (L := varLoc C) (m := M.name) (ps := []) hw h.answers n).keep (st := .init) he
    have hl : varLoc (C.mask N M.name []) = varLoc C := rfl
    rw [hl]
    generalize e.finish (C.mask N M.name []) (varLoc C) n .init = R at *
    rcases R with ⟨b, st, z | r⟩
    · rfl
    · dsimp only at hk ⊢
      have h1 := expr_toks (C := C) (m := M.name) (ps := []) (L := varLoc C) (exp := st.exportAsMacro) hw hk
      have h2 : (r.map (·.toks ⟨C, varLoc C, st.exportAsMacro⟩)) = r.map (·.toks ⟨C.mask N M.name [], varLoc C, st.exportAsMacro⟩) := by
        cases r with
        | none => rfl
        | some t => exact congrArg some (ty_toks t)
      cases b with
      | lit l => cases l <;> simp only [h1, h2, string_toks (C := C) (m := M.name) (ps := []) hw] <;> rfl
      | _ => simp only [h1, h2]; rfl

end

end CMacro
