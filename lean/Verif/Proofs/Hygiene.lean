import Verif.Proofs.Metavar
import Verif.Spec.Hygiene

/-!
# Variables that generated code introduces
-/

namespace CMacro
open Spec

/-- Every `let` is followed by a name other than `x`. -/
def letOk (x : Str) : List RTok → Bool
  | .id a :: ts =>
    (decide (a ≠ c!"let") || match ts with
      | .id b :: us => if b = c!"mut" then (match us with | u :: _ => decide (u ≠ .id x) | [] => false) else decide (b ≠ x)
      | _ :: _ => true
      | [] => false) && letOk x ts
  | _ :: ts => letOk x ts
  | [] => true

theorem letOk_id {x a : Str} {ts : List RTok} : letOk x (.id a :: ts) =
    ((decide (a ≠ c!"let") || match ts with
      | .id b :: us => if b = c!"mut" then (match us with | u :: _ => decide (u ≠ .id x) | [] => false) else decide (b ≠ x)
      | _ :: _ => true
      | [] => false) && letOk x ts) := by rw [letOk.eq_def]

theorem letOk_other {x : Str} {t : RTok} {ts : List RTok} (h : ∀ a, t ≠ .id a) : letOk x (t :: ts) = letOk x ts := by
  cases t <;> first | exact absurd rfl (h _) | (rw [letOk.eq_def])

theorem ownLets_id {a : Str} {ts : List RTok} : ownLets (.id a :: ts) =
    ((decide (a ≠ c!"let") || (ts.head?.any fun t => [RTok.id c!"value", .id c!"prev", .id c!"_"].contains t)) && ownLets ts) := by rw [ownLets.eq_def]

theorem ownLets_other {t : RTok} {ts : List RTok} (h : ∀ a, t ≠ .id a) : ownLets (t :: ts) = ownLets ts := by
  cases t <;> first | exact absurd rfl (h _) | (rw [ownLets.eq_def])

theorem letOk_app {x : Str} : ∀ {a b : List RTok}, letOk x a = true → letOk x b = true → letOk x (a ++ b) = true
  | [], _, _, hb => hb
  | .id c :: ts, b, h, hb => by
    rw [letOk_id, Bool.and_eq_true] at h
    rw [List.cons_append, letOk_id, Bool.and_eq_true]
    refine ⟨?_, letOk_app h.2 hb⟩
    have h1 := h.1
    rw [Bool.or_eq_true] at h1 ⊢
    rcases h1 with h1 | h1
    · exact .inl h1
    · refine .inr ?_
      cases ts with
      | nil => cases h1
      | cons t ts =>
        cases t with
        | id d =>
          simp only [List.cons_append] at h1 ⊢
          split
          · rename_i hd
            rw [if_pos hd] at h1
            cases ts with
            | nil => cases h1
            | cons u us => exact h1
          · rename_i hd
            rw [if_neg hd] at h1
            exact h1
        | _ => rfl
  | .punct _ :: ts, b, h, hb | .int _ _ :: ts, b, h, hb | .float .. :: ts, b, h, hb | .char _ :: ts, b, h, hb | .bytes _ :: ts, b, h, hb
  | .str _ :: ts, b, h, hb | .opaque _ :: ts, b, h, hb | .bad :: ts, b, h, hb => by
    rw [letOk_other (by rintro _ ⟨⟩)] at h
    rw [List.cons_append, letOk_other (by rintro _ ⟨⟩)]
    exact letOk_app h hb

theorem letOk_noLet {x : Str} : ∀ {ts : List RTok}, RTok.id c!"let" ∉ ts → letOk x ts = true
  | [], _ => rfl
  | .id c :: ts, h => by
    rw [letOk_id, Bool.and_eq_true]
    exact ⟨by rw [Bool.or_eq_true]; left; simp only [decide_eq_true_eq]; rintro rfl; exact h (by simp), letOk_noLet fun hm => h (by simp [hm])⟩
  | .punct _ :: ts, h | .int _ _ :: ts, h | .float .. :: ts, h | .char _ :: ts, h | .bytes _ :: ts, h
  | .str _ :: ts, h | .opaque _ :: ts, h | .bad :: ts, h => by
    rw [letOk_other (by rintro _ ⟨⟩)]
    exact letOk_noLet fun hm => h (by simp [hm])

theorem letOk_own {x : Str} (hx : x ∉ [c!"value", c!"prev", c!"_"]) : ∀ {ts : List RTok}, ownLets ts = true → letOk x ts = true
  | [], _ => rfl
  | .id c :: ts, h => by
    rw [ownLets_id, Bool.and_eq_true] at h
    rw [letOk_id, Bool.and_eq_true]
    refine ⟨?_, letOk_own hx h.2⟩
    have h1 := h.1
    rw [Bool.or_eq_true] at h1 ⊢
    refine h1.imp_right fun h1 => ?_
    cases ts with
    | nil => cases h1
    | cons t ts =>
      simp only [List.mem_cons, List.not_mem_nil, or_false, not_or] at hx
      simp only [List.head?_cons, Option.any_some, List.contains_eq_mem, List.mem_cons, List.not_mem_nil, or_false, decide_eq_true_eq] at h1
      rcases h1 with rfl | rfl | rfl
      · simp only [decide_eq_true_eq]
        rw [if_neg (by decide)]
        simpa using Ne.symm hx.1
      · simp only [decide_eq_true_eq]
        rw [if_neg (by decide)]
        simpa using Ne.symm hx.2.1
      · simp only [decide_eq_true_eq]
        rw [if_neg (by decide)]
        simpa using Ne.symm hx.2.2
  | .punct _ :: ts, h | .int _ _ :: ts, h | .float .. :: ts, h | .char _ :: ts, h | .bytes _ :: ts, h
  | .str _ :: ts, h | .opaque _ :: ts, h | .bad :: ts, h => by
    rw [ownLets_other (by rintro _ ⟨⟩)] at h
    rw [letOk_other (by rintro _ ⟨⟩)]
    exact letOk_own hx h

theorem letOk_tail {x : Str} {t : RTok} {ts : List RTok} (h : letOk x (t :: ts) = true) : letOk x ts = true := by
  cases t with
  | id => rw [letOk_id, Bool.and_eq_true] at h; exact h.2
  | _ => rw [letOk_other (by rintro _ ⟨⟩)] at h; exact h

theorem letOk_suffix {x : Str} : ∀ {a b : List RTok}, letOk x (a ++ b) = true → letOk x b = true
  | [], _, h => h
  | _ :: a, _, h => letOk_suffix (a := a) (letOk_tail h)

theorem letOk_rebinds {x : Str} {ts : List RTok} (hx : x ≠ c!"mut") (h : letOk x ts = true) : ¬ Rebinds x ts := by
  rintro (⟨a, b, rfl⟩ | ⟨a, b, rfl⟩)
  · rw [List.append_assoc] at h
    have := letOk_suffix h
    simp only [List.cons_append, List.nil_append, letOk_id] at this
    rw [if_neg hx] at this
    simp at this
  · rw [List.append_assoc] at h
    have := letOk_suffix h
    simp [letOk_id] at this

/-! ## Finishing keeps the declared names -/

section
variable {C : Ctx} {f : Expr → LState → Fin Expr}

theorem varDecl_name (d : VarDecl) (st : LState) : (d.finish C f st).1.name = d.name := by
  unfold VarDecl.finish
  repeat' split
  all_goals rfl

mutual
theorem declared_finish : ∀ (s : Stmt) (st : LState), declared (s.finish C f st).1 = declared s
  | .asm a, st => by rw [Stmt.finish]; rfl
  | .expr e, st => by
    simp only [Stmt.finish]
    generalize f e st = R
    rcases R with ⟨x, s, r | r⟩ <;> rfl
  | .fnDecl d, st => by rw [Stmt.finish]; rfl
  | .varDecl d, st => by
    rw [Stmt.finish]
    simp only [declared]
    rw [varDecl_name]
  | .block ss, st => by
    rw [Stmt.finish]
    exact declaredL_finish ss st
  | .ite c t u, st => by
    simp only [Stmt.finish]
    generalize finishCondition f c st = R
    rcases R with ⟨c', s, x | x⟩
    · rfl
    · simp only
      have ht := declaredL_finish t s
      generalize Stmt.finishL C f t s = R at *
      rcases R with ⟨t', s1, y | y⟩
      · simp only [declared] at ht ⊢; rw [ht]
      · simp only at ht ⊢
        have hu := declaredL_finish u s1
        simp only [declared] at hu ⊢; rw [ht, hu]
  | .doWhile b c, st => by
    simp only [Stmt.finish]
    have ht := declaredL_finish b st
    generalize Stmt.finishL C f b st = R at *
    rcases R with ⟨t', s1, y | y⟩
    · simp only [declared] at ht ⊢; exact ht
    · simp only at ht ⊢
      generalize finishCondition f c s1 = R
      rcases R with ⟨c', s, x | x⟩ <;> exact ht
theorem declaredL_finish : ∀ (ss : List Stmt) (st : LState), declaredL (Stmt.finishL C f ss st).1 = declaredL ss
  | [], _ => rfl
  | s :: ss, st => by
    have hs := declared_finish s st
    simp only [Stmt.finishL]
    generalize s.finish C f st = R at *
    rcases R with ⟨s', s1, y | y⟩
    · simp only [declaredL] at hs ⊢; rw [hs]
    · simp only at hs ⊢
      have hss := declaredL_finish ss s1
      simp only [declaredL] at hss ⊢; rw [hs, hss]
end

theorem bodyDeclared_finish (b : MacroBody) (st : LState) : bodyDeclared (b.finish C f st).1 = bodyDeclared b := by
  cases b with
  | expr e =>
    simp only [MacroBody.finish]
    generalize f e st = R
    rcases R with ⟨x, s, r | r⟩ <;> rfl
  | stmt s =>
    have hs := declared_finish (C := C) (f := f) s st
    simp only [MacroBody.finish]
    generalize s.finish C f st = R at *
    rcases R with ⟨x, s, r | r⟩ <;> exact hs

end

/-! ## Printing -/

theorem letOk_inv {C : Ctx} {m : FnMacro} {x : Str} {exp : Bool} (hx : x ∉ [c!"value", c!"prev", c!"_"]) (h : NoLet C m) :
    PrintInv ⟨C, fnLoc m.args, exp⟩ (fun y => y ≠ c!"let")
      (fun n => ¬ (n = .plain x ∨ (∃ i, n = .arg i ∧ m.args[i]? = some x) ∨ ∃ ids, n = .concat ids)) (fun ts => letOk x ts = true) where
  nil := rfl
  app := letOk_app
  tok := fun {t} ht => by cases t <;> first | rfl | exact ht.elim
  word := fun {y} hy => letOk_noLet (by simpa using Ne.symm hy)
  own := fun _ h => h
  fixed := fun {ts} h => by
    rw [plainToks, Bool.and_eq_true] at h
    exact letOk_own hx h.2
  decl := by
    intro n b hd hn
    cases b with
    | true => exact letOk_app (a := q!"static mut") (letOk_noLet (by decide)) hn
    | false =>
      have hne : ∃ t ts, n.toks ⟨C, fnLoc m.args, exp⟩ = t :: ts ∧ t ≠ .id x := by
        simp only [not_or, not_exists, not_and] at hd
        cases n with
        | plain y => exact ⟨_, _, rfl, by rintro ⟨⟩; exact hd.1 rfl⟩
        | concat ids => exact absurd rfl (hd.2.2 ids)
        | arg i =>
          simp only [IdentExpr.toks, argToks]
          have := hd.2.1 i rfl
          split
          · exact ⟨_, _, rfl, by rintro ⟨⟩⟩
          · rename_i y hy
            split
            · exact ⟨_, _, rfl, by rintro ⟨⟩⟩
            · split
              · exact ⟨_, _, rfl, by rintro ⟨⟩⟩
              · refine ⟨_, _, rfl, ?_⟩
                rintro ⟨⟩
                exact this hy
      obtain ⟨t, ts, ht, htx⟩ := hne
      rw [ht] at hn ⊢
      simp only [Bool.false_eq_true, if_false, List.cons_append, List.nil_append]
      rw [letOk_id, letOk_id, hn]
      simp [htx]
  ffi := fun p hp y hy he => h.ffi p hp (he ▸ hy)
  trait := fun p hp y hy he => h.trait p hp (he ▸ hy)
  types := fun id t ht y hy he => h.types id t ht (he ▸ hy)
  variants := fun id t e he => letOk_noLet (h.variants id t e he)
  arg := by
    intro i
    refine letOk_noLet ?_
    unfold argToks
    split
    · simp
    · rename_i y hy
      split
      · decide
      · split <;> simp only [List.cons_append, List.nil_append, List.mem_cons, List.not_mem_nil, or_false, reduceCtorEq, false_or]
        all_goals
          rintro ⟨⟩
          exact h.args (List.mem_of_getElem? hy)
  str := by
    intro i
    refine letOk_noLet ?_
    split
    · rename_i y hy
      simp only [List.mem_cons, List.not_mem_nil, or_false, reduceCtorEq, false_or]
      rintro ⟨⟩
      exact h.args (List.mem_of_getElem? hy)
    · simp

end CMacro
