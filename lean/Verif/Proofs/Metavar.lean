import Verif.Proofs.PrintInv
import Verif.Spec.Metavar

/-!
# Printed parameters
-/

namespace CMacro
open Spec

/-! ## Finishing introduces no names -/

section
variable {w : Str} {ps : List Str} {C : Ctx} {L : Loc} {f : Expr → LState → Fin Expr}

mutual
theorem exprOnce_zero : ∀ {e : Expr}, leafCount w ps (exprLeaves e) = 0 → ExprOnce w ps e
  | .var _, _ => trivial
  | .call _ as, h => by
    rw [exprLeaves, lc_append] at h
    rw [ExprOnce]
    exact exprsOnce_zero (es := as) (by omega)
  | .cast ty x, h => by
    rw [exprLeaves, lc_append] at h
    rw [ExprOnce]
    exact ⟨tyOnce_zero (by omega), exprOnce_zero (by omega)⟩
  | .lit _, _ => trivial
  | .stringify n, h => by
    rw [exprLeaves] at h
    rw [ExprOnce]
    cases n with
    | arg => trivial
    | _ => exact h
  | .concatStr parts, h => by
    rw [exprLeaves] at h
    rw [ExprOnce]
    exact exprsOnce_zero h
  | .sizeOf ty, h => by
    rw [exprLeaves] at h
    rw [ExprOnce]
    exact tyOnce_zero h
  | .un op x, h => by
    rw [exprLeaves] at h
    rw [ExprOnce]
    exact ⟨fun _ => h, exprOnce_zero h⟩
  | .bin l op r, h => by
    rw [exprLeaves, lc_append] at h
    rw [ExprOnce]
    exact ⟨fun _ => by omega, exprOnce_zero (by omega), exprOnce_zero (by omega)⟩
  | .ternary c t u, h => by
    rw [exprLeaves, lc_append, lc_append] at h
    rw [ExprOnce]
    exact ⟨exprOnce_zero (by omega), exprOnce_zero (by omega), exprOnce_zero (by omega)⟩
theorem exprsOnce_zero : ∀ {es : List Expr}, leafCount w ps (exprsLeaves es) = 0 → ExprsOnce w ps es
  | [], _ => trivial
  | e :: es, h => by
    rw [exprsLeaves, lc_append] at h
    rw [ExprsOnce]
    exact ⟨exprOnce_zero (by omega), exprsOnce_zero (by omega)⟩
end

/-- A name that does not occur does not come to occur. -/
def KeepsZero (w : Str) (ps : List Str) (f : Expr → LState → Fin Expr) : Prop :=
  ∀ e st, leafCount w ps (exprLeaves e) = 0 → leafCount w ps (exprLeaves (f e st).tree) = 0

theorem keepsZero (h : KeepsCount w ps f) : KeepsZero w ps f := fun e st he => (h e st (exprOnce_zero he)).2.trans he

theorem outputs_zero (h : KeepsZero w ps f) : ∀ (es : List (Dir × RegConstraint × Expr)) (st : LState),
    leafCount w ps (es.flatMap fun o => exprLeaves o.2.2) = 0 → leafCount w ps ((finishOutputs f es st).1.flatMap fun o => exprLeaves o.2.2) = 0
  | [], _, _ => rfl
  | (d, c, e) :: es, st, ho => by
    rw [List.flatMap_cons, lc_append] at ho
    dsimp only at ho
    have he := h e st (by omega)
    simp only [finishOutputs]
    generalize f e st = R at *
    rcases R with ⟨x, s, r | r⟩
    · simp only [List.flatMap_cons, lc_append] at he ⊢; omega
    · have := outputs_zero h es s (by omega)
      simp only [List.flatMap_cons, lc_append] at he ⊢; omega

theorem inputs_zero (h : KeepsZero w ps f) : ∀ (es : List (RegConstraint × Expr)) (st : LState),
    leafCount w ps (es.flatMap fun o => exprLeaves o.2) = 0 → leafCount w ps ((finishInputs f es st).1.flatMap fun o => exprLeaves o.2) = 0
  | [], _, _ => rfl
  | (c, e) :: es, st, ho => by
    rw [List.flatMap_cons, lc_append] at ho
    dsimp only at ho
    have he := h e st (by omega)
    simp only [finishInputs]
    generalize f e st = R at *
    rcases R with ⟨x, s, r | r⟩
    · simp only [List.flatMap_cons, lc_append] at he ⊢; omega
    · have := inputs_zero h es s (by omega)
      simp only [List.flatMap_cons, lc_append] at he ⊢; omega

theorem asm_zero (h : KeepsZero w ps f) (a : Asm) (st : LState) (ha : leafCount w ps (asmLeaves a) = 0) :
    leafCount w ps (asmLeaves (a.finish f st).1) = 0 := by
  rw [asmLeaves, lc_append] at ha
  have h1 := outputs_zero h a.outputs st (by omega)
  simp only [Asm.finish]
  generalize finishOutputs f a.outputs st = R at *
  rcases R with ⟨os, s, r | r⟩
  · simp only [asmLeaves, lc_append] at h1 ⊢; omega
  · simp only at h1 ⊢
    have h2 := inputs_zero h a.inputs s (by omega)
    generalize finishInputs f a.inputs s = R at *
    rcases R with ⟨is, s', r | r⟩ <;> (simp only [asmLeaves, lc_append] at h2 ⊢; omega)

theorem fnArgs_once : ∀ {as : List (Ty × IdentExpr)}, leafCount w ps (as.flatMap fun a => tyLeaves a.1 ++ nameLeaves a.2) = 0 →
    ∀ a ∈ as, TyOnce w ps a.1
  | [], _, a, ha => by cases ha
  | b :: as, h, a, ha => by
    rw [List.flatMap_cons, lc_append, lc_append] at h
    rcases List.mem_cons.1 ha with rfl | ha
    · exact tyOnce_zero (by omega)
    · exact fnArgs_once (as := as) (by omega) a ha

mutual
theorem stmt_zero (hw : Unbuilt C w) (h : KeepsCount w ps f) : ∀ (s : Stmt) (st : LState), leafCount w ps (stmtLeaves s) = 0 →
    leafCount w ps (stmtLeaves (s.finish C f st).1) = 0
  | .asm a, st, ho => by
    rw [stmtLeaves] at ho
    have := asm_zero (keepsZero h) a st ho
    rwa [Stmt.finish]
  | .expr e, st, ho => by
    rw [stmtLeaves] at ho
    have he := keepsZero h e st ho
    simp only [Stmt.finish]
    generalize f e st = R at *
    rcases R with ⟨x, s, r | r⟩ <;> exact he
  | .fnDecl d, st, ho => by
    have ho' := ho
    rw [stmtLeaves, lc_append, lc_append] at ho'
    have := fnDecl_finish_count (ps := ps) hw d st ⟨tyOnce_zero (by omega), fnArgs_once (by omega)⟩
    rw [Stmt.finish]
    exact this.2.trans ho
  | .varDecl d, st, ho => by
    have ho' := ho
    rw [stmtLeaves, lc_append, lc_append] at ho'
    have := varDecl_finish_count hw h d st ⟨tyOnce_zero (by omega), exprOnce_zero (by omega)⟩
    rw [Stmt.finish]
    exact this.2.trans ho
  | .block ss, st, ho => by
    rw [stmtLeaves] at ho
    have := stmts_zero hw h ss st ho
    rwa [Stmt.finish]
  | .ite c t u, st, ho => by
    rw [stmtLeaves, lc_append, lc_append] at ho
    simp only [Stmt.finish]
    have hc := keepsZero (finishCondition_count h) c st (by omega)
    generalize finishCondition f c st = R at *
    rcases R with ⟨c', s, x | x⟩
    · simp only [stmtLeaves, lc_append] at hc ⊢; omega
    · simp only at hc ⊢
      have ht := stmts_zero hw h t s (by omega)
      generalize Stmt.finishL C f t s = R at *
      rcases R with ⟨t', s1, y | y⟩
      · simp only [stmtLeaves, lc_append] at ht ⊢; omega
      · simp only at ht ⊢
        have hu := stmts_zero hw h u s1 (by omega)
        simp only [stmtLeaves, lc_append] at hu ⊢; omega
  | .doWhile b c, st, ho => by
    rw [stmtLeaves, lc_append] at ho
    simp only [Stmt.finish]
    have ht := stmts_zero hw h b st (by omega)
    generalize Stmt.finishL C f b st = R at *
    rcases R with ⟨t', s1, y | y⟩
    · simp only [stmtLeaves, lc_append] at ht ⊢; omega
    · simp only at ht ⊢
      have hc := keepsZero (finishCondition_count h) c s1 (by omega)
      generalize finishCondition f c s1 = R at *
      rcases R with ⟨c', s, x | x⟩ <;> (simp only [stmtLeaves, lc_append] at hc ⊢; omega)
theorem stmts_zero (hw : Unbuilt C w) (h : KeepsCount w ps f) : ∀ (ss : List Stmt) (st : LState), leafCount w ps (stmtsLeaves ss) = 0 →
    leafCount w ps (stmtsLeaves (Stmt.finishL C f ss st).1) = 0
  | [], _, _ => rfl
  | s :: ss, st, ho => by
    rw [stmtsLeaves, lc_append] at ho
    have hs := stmt_zero hw h s st (by omega)
    simp only [Stmt.finishL]
    generalize s.finish C f st = R at *
    rcases R with ⟨s', s1, y | y⟩
    · simp only [stmtsLeaves, lc_append] at hs ⊢; omega
    · simp only at hs ⊢
      have hss := stmts_zero hw h ss s1 (by omega)
      simp only [stmtsLeaves, lc_append] at hss ⊢; omega
end

theorem body_zero (hw : Unbuilt C w) (h : KeepsCount w ps f) (b : MacroBody) (st : LState) (hb : leafCount w ps (bodyLeaves b) = 0) :
    leafCount w ps (bodyLeaves (b.finish C f st).1) = 0 := by
  cases b with
  | expr e =>
    have he := keepsZero h e st hb
    simp only [MacroBody.finish]
    generalize f e st = R at *
    rcases R with ⟨x, s, r | r⟩ <;> exact he
  | stmt s =>
    have hs := stmt_zero hw h s st hb
    simp only [MacroBody.finish]
    generalize s.finish C f st = R at *
    rcases R with ⟨x, s, r | r⟩ <;> exact hs

theorem name_zero {ls : List Leaf} : leafCount w [] ls = 0 ↔ Leaf.name w ∉ ls := by
  unfold leafCount
  rw [List.countP_eq_zero]
  constructor
  · intro h hm
    exact h _ hm (by simp)
  · intro h l hl
    cases l with
    | name x => simp only [decide_eq_true_eq]; rintro rfl; exact h hl
    | _ => simp

/-- Parameters stay replaced. -/
theorem replaced_finish (b : MacroBody) (n : Nat) (st : LState) (h : ParamsReplaced ps (bodyLeaves b)) :
    Words (fun x => OrdinaryWord C x → x ∉ ps) (bodyLeaves (b.finish C (Expr.finish C L n) st).1) := by
  intro x hx ho hm
  exact name_zero.1 (body_zero (unbuilt ho) (expr_finish_count (unbuilt ho) n) b st (name_zero.2 (h x hm))) hx

end

/-! ## Printing -/

/-- `Metavars`, before it is known that the tokens can be built. -/
inductive Metas (C : Ctx) (ps : List Str) : List RTok → Prop
  | nil : Metas C ps []
  | metavar {x ts} : x ∈ ps → Metas C ps ts → Metas C ps (.punct c!"$" :: .id x :: ts)
  | bad {ts} : Metas C ps ts → Metas C ps (.punct c!"$" :: .bad :: ts)
  | rest {ts} : c!"..." ∈ ps → Metas C ps ts → Metas C ps (q!"$ ( $ __VA_ARGS__ ) , *" ++ ts)
  | tok {t ts} : t ≠ .punct c!"$" → (∀ x, t = .id x → OrdinaryWord C x → x ∉ ps) → Metas C ps ts → Metas C ps (t :: ts)

section
variable {C : Ctx} {ps : List Str}

theorem Metas.app {a b : List RTok} (h : Metas C ps a) (hb : Metas C ps b) : Metas C ps (a ++ b) := by
  induction h with
  | nil => exact hb
  | metavar hx _ ih => exact .metavar hx ih
  | bad _ ih => exact .bad ih
  | rest hr _ ih => rw [List.append_assoc]; exact .rest hr ih
  | tok ht hx _ ih => exact .tok ht hx ih

theorem Metas.plain : ∀ {ts : List RTok}, .punct c!"$" ∉ ts → (∀ x, .id x ∈ ts → OrdinaryWord C x → x ∉ ps) → Metas C ps ts
  | [], _, _ => .nil
  | _ :: _, h, h' => .tok (fun he => h (by simp [he])) (fun x hx => h' x (by simp [hx]))
    (plain (fun hm => h (by simp [hm])) fun x hx => h' x (by simp [hx]))

theorem dots_not_ident {E : Env} (hE : E.Lawful) : isIdentifier E c!"..." = false := by
  simp only [isIdentifier, isIdentStart, hE.startAscii '.' (by decide)]
  rfl

theorem Metas.metavars {ts : List RTok} (hE : C.env.Lawful) (hc : c!"crate" ∉ ps) (h : Metas C ps ts) (hok : toksOk C.env ts = true) :
    Metavars C ps ts := by
  induction h with
  | nil => exact .nil
  | metavar hx _ ih =>
    simp only [toksOk, List.all_cons, RTok.ok, Bool.true_and, Bool.and_eq_true] at hok ih
    refine .metavar hx ?_ (fun h => hc (h ▸ hx)) (ih hok.2)
    rintro rfl
    rw [dots_not_ident hE] at hok
    exact absurd hok.1 (by simp)
  | bad _ ih => simp [toksOk, RTok.ok] at hok
  | rest hr _ ih =>
    simp only [toksOk, List.all_append, Bool.and_eq_true] at hok ih
    exact .rest hr (ih hok.2)
  | tok ht hx _ ih =>
    simp only [toksOk, List.all_cons, Bool.and_eq_true] at hok ih
    exact .tok ht hx (ih hok.2)

theorem metas_inv {L : Loc} (hL : L.argNames = ps) (hv : ∀ id t e, C.resolveEnumVariant id = some (t, e) → .punct c!"$" ∉ e) :
    PrintInv ⟨C, L, true⟩ (fun x => OrdinaryWord C x → x ∉ ps) (fun _ => True) (Metas C ps) where
  nil := .nil
  app := Metas.app
  tok := fun {t} ht => .tok (by rintro rfl; exact ht rfl) (by rintro x rfl; exact ht.elim) .nil
  word := fun {x} hx => .tok (by simp) (by rintro y ⟨⟩; exact hx) .nil
  own := fun {x} hx _ ho => absurd hx ho.own
  fixed := fun {ts} h => by
    simp only [plainToks, Bool.and_eq_true, List.all_eq_true] at h
    refine .plain (fun hm => ?_) fun x hx ho => absurd ?_ ho.own
    · simpa using h.1 _ hm
    · simpa using h.1 _ hx
  decl := fun b _ h => by
    cases b
    · exact Metas.app (.plain (by simp) fun x hx ho => absurd (by simp at hx; rcases hx with rfl | rfl <;> decide) ho.own) h
    · exact Metas.app (.plain (by simp) fun x hx ho => absurd (by simp at hx; rcases hx with rfl | rfl <;> decide) ho.own) h
  ffi := fun p hp x hx ho => absurd hx (ho.ffi p hp)
  trait := fun p hp x hx ho => absurd hx (ho.trait p hp)
  types := fun id t ht x hx ho => absurd hx (ho.types id t ht)
  variants := fun id t e he => .plain (hv id t e he) fun x hx ho => absurd hx (ho.variants id t e he)
  arg := by
    intro i
    unfold argToks
    dsimp only
    rw [hL]
    split
    · exact .tok (by simp) (by rintro x ⟨⟩) .nil
    · rename_i n hn
      have hm := List.mem_of_getElem? hn
      split
      · rename_i h
        have := Metas.rest (C := C) (ps := ps) (h ▸ hm) .nil
        rwa [List.append_nil] at this
      · exact .metavar hm .nil
  str := by
    intro i
    dsimp only
    rw [hL]
    cases h : ps[i]? with
    | none => exact .bad .nil
    | some n => exact .metavar (List.mem_of_getElem? h) .nil

end

/-- The declared parameters. -/
theorem macroParams_get : ∀ {as : List Str} {ts : List ArgTy}, ts.length = as.length → c!"crate" ∉ as →
    (macroParams as ts).length = as.length ∧ ∀ (i : Nat) (x : Str), as[i]? = some x → ∃ p, (macroParams as ts)[i]? = some p ∧ Declares x p
  | [], ts, h, _ => by
    cases ts with
    | nil => exact ⟨rfl, by simp⟩
    | cons => cases h
  | a :: as, [], h, _ => by cases h
  | a :: as, t :: ts, h, hc => by
    simp only [List.mem_cons, not_or] at hc
    obtain ⟨h1, h2⟩ := macroParams_get (as := as) (ts := ts) (by simpa using h) hc.2
    refine ⟨by simp [macroParams, h1], fun i x hx => ?_⟩
    cases i with
    | zero =>
      simp only [List.getElem?_cons_zero, Option.some.injEq] at hx
      subst hx
      refine ⟨_, rfl, ?_⟩
      split
      · rename_i he; subst he; exact .rest
      · rename_i he
        exact .one he (Ne.symm hc.1) (by cases t <;> simp [ArgTy.fragment])
    | succ i => exact h2 i x (by simpa using hx)

end CMacro
