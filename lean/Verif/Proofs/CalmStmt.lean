import Verif.Proofs.Calm

/-!
# Finishing calm statements does not panic
-/

namespace CMacro

open Spec

section
variable {C : Ctx} {L : Loc} {ps : List Str}

theorem calm_finishOutputs {f : Expr → LState → Fin Expr} (h : Calms C ps f) :
    ∀ (os : List (Dir × RegConstraint × Expr)) (st : LState), (∀ o ∈ os, CalmExpr C.env ps o.2.2) → CalmSt C ps st →
      (∀ o ∈ (finishOutputs f os st).1, CalmExpr C.env ps o.2.2) ∧ (finishOutputs f os st).1.length = os.length ∧
      CalmSt C ps (finishOutputs f os st).2.1 ∧ (finishOutputs f os st).2.2 ≠ .error .panic
  | [], st, ho, hs => ⟨ho, rfl, hs, by simp [finishOutputs]⟩
  | (d, c, e) :: os, st, ho, hs => by
    have h1 := h e st (ho (d, c, e) List.mem_cons_self) hs
    have hr : ∀ o ∈ os, CalmExpr C.env ps o.2.2 := fun o h' => ho o (List.mem_cons_of_mem _ h')
    simp only [finishOutputs]
    generalize f e st = R at *
    rcases R with ⟨x, s, r | r⟩
    · refine ⟨fun o h' => ?_, rfl, h1.st, by simpa using h1.noPanic⟩
      rcases List.mem_cons.1 h' with rfl | h'
      · exact h1.tree
      · exact hr o h'
    · have ih := calm_finishOutputs h os s hr h1.st
      refine ⟨fun o h' => ?_, by simpa using ih.2.1, ih.2.2.1, ih.2.2.2⟩
      rcases List.mem_cons.1 h' with rfl | h'
      · exact h1.tree
      · exact ih.1 o h'

theorem calm_finishInputs {f : Expr → LState → Fin Expr} (h : Calms C ps f) :
    ∀ (os : List (RegConstraint × Expr)) (st : LState), (∀ o ∈ os, CalmExpr C.env ps o.2) → CalmSt C ps st →
      (∀ o ∈ (finishInputs f os st).1, CalmExpr C.env ps o.2) ∧ (finishInputs f os st).1.map (·.1) = os.map (·.1) ∧
      CalmSt C ps (finishInputs f os st).2.1 ∧ (finishInputs f os st).2.2 ≠ .error .panic
  | [], st, ho, hs => ⟨ho, rfl, hs, by simp [finishInputs]⟩
  | (c, e) :: os, st, ho, hs => by
    have h1 := h e st (ho (c, e) List.mem_cons_self) hs
    have hr : ∀ o ∈ os, CalmExpr C.env ps o.2 := fun o h' => ho o (List.mem_cons_of_mem _ h')
    simp only [finishInputs]
    generalize f e st = R at *
    rcases R with ⟨x, s, r | r⟩
    · refine ⟨fun o h' => ?_, rfl, h1.st, by simpa using h1.noPanic⟩
      rcases List.mem_cons.1 h' with rfl | h'
      · exact h1.tree
      · exact hr o h'
    · have ih := calm_finishInputs h os s hr h1.st
      refine ⟨fun o h' => ?_, by simpa using ih.2.1, ih.2.2.1, ih.2.2.2⟩
      rcases List.mem_cons.1 h' with rfl | h'
      · exact h1.tree
      · exact ih.1 o h'

theorem calm_asm {f : Expr → LState → Fin Expr} (h : Calms C ps f) {a : Asm} {st : LState} (ha : CalmAsm C.env ps a)
    (hs : CalmSt C ps st) :
    CalmAsm C.env ps (a.finish f st).1 ∧ CalmSt C ps (a.finish f st).2.1 ∧ (a.finish f st).2.2 ≠ .error .panic := by
  obtain ⟨ho, hi, hr⟩ := ha
  have h1 := calm_finishOutputs h a.outputs st ho hs
  simp only [Asm.finish]
  generalize finishOutputs f a.outputs st = R at *
  rcases R with ⟨outs, s, e | ⟨⟩⟩
  · refine ⟨⟨h1.1, hi, ?_⟩, h1.2.2.1, by simpa using h1.2.2.2⟩
    simpa only [h1.2.1] using hr
  · have h2 := calm_finishInputs h a.inputs s hi h1.2.2.1
    simp only
    generalize finishInputs f a.inputs s = R at *
    rcases R with ⟨ins, s', e | ⟨⟩⟩
    all_goals
      have hl : ins.length = a.inputs.length := by simpa using congrArg List.length h2.2.1
      have hr' : removable (ins.map (·.1)) outs.length ins.length := by
        have := h2.2.1
        simp only at this
        rw [this, hl]
        simpa only [h1.2.1] using hr
    · exact ⟨⟨h1.1, h2.1, hr'⟩, h2.2.2.1, by simpa using h2.2.2.2⟩
    · simp only
      refine ⟨⟨h1.1, h2.1, hr'⟩, ?_, by simp⟩
      split
      · exact h2.2.2.1.export
      · exact h2.2.2.1

theorem calm_finishDeclArgs (hC : CalmCtx C) : ∀ (as : List (Ty × IdentExpr)) (st : LState),
    (∀ a ∈ as, CalmTy C.env ps.length a.1 ∧ CalmName C.env ps.length a.2) → CalmSt C ps st →
      (∀ a ∈ (finishDeclArgs C as st).1, CalmTy C.env ps.length a.1 ∧ CalmName C.env ps.length a.2) ∧
      CalmSt C ps (finishDeclArgs C as st).2.1 ∧ (finishDeclArgs C as st).2.2 ≠ .error .panic
  | [], st, ho, hs => ⟨ho, hs, by simp [finishDeclArgs]⟩
  | (t, n) :: as, st, ho, hs => by
    have h0 := ho (t, n) List.mem_cons_self
    have h1 := calm_ty hC h0.1 hs
    have hr : ∀ a ∈ as, CalmTy C.env ps.length a.1 ∧ CalmName C.env ps.length a.2 := fun o h' => ho o (List.mem_cons_of_mem _ h')
    simp only [finishDeclArgs]
    generalize t.finish C st = R at *
    rcases R with ⟨x, s, r | r⟩
    · refine ⟨fun o h' => ?_, h1.2.1, by simpa using h1.2.2⟩
      rcases List.mem_cons.1 h' with rfl | h'
      · exact ⟨h1.1, h0.2⟩
      · exact hr o h'
    · have ih := calm_finishDeclArgs hC as s hr h1.2.1
      refine ⟨fun o h' => ?_, ih.2.1, ih.2.2⟩
      rcases List.mem_cons.1 h' with rfl | h'
      · exact ⟨h1.1, h0.2⟩
      · exact ih.1 o h'

theorem calm_fnDecl (hC : CalmCtx C) {f : Expr → LState → Fin Expr} {d : FunctionDecl} {st : LState}
    (hd : CalmStmt C.env ps (.fnDecl d)) (hs : CalmSt C ps st) :
    CalmStmt C.env ps (Stmt.finish C f (.fnDecl d) st).1 ∧ CalmSt C ps (Stmt.finish C f (.fnDecl d) st).2.1 ∧
      (Stmt.finish C f (.fnDecl d) st).2.2 ≠ .error .panic := by
  obtain ⟨h1, h2, h3⟩ := hd
  have ht := calm_ty hC h1 hs
  simp only [Stmt.finish, FunctionDecl.finish]
  generalize d.retTy.finish C st = R at *
  rcases R with ⟨t, s, e | r⟩
  · exact ⟨⟨ht.1, h2, h3⟩, ht.2.1, by simpa using ht.2.2⟩
  · simp only at ht ⊢
    have key : ∀ s' : LState, CalmSt C ps s' →
        (∀ a ∈ (finishDeclArgs C d.args s').1, CalmTy C.env ps.length a.1 ∧ CalmName C.env ps.length a.2) ∧
        CalmSt C ps (finishDeclArgs C d.args s').2.1 ∧ (finishDeclArgs C d.args s').2.2 ≠ .error .panic :=
      fun s' hs' => calm_finishDeclArgs hC d.args s' h3 hs'
    cases hn : d.name with
    | arg i =>
      rw [hn] at h2
      obtain ⟨a, ha, _⟩ := ht.2.1.arg h2
      simp only [ha]
      have := key _ (ht.2.1.set (i := i) (t := .ident) trivial)
      exact ⟨⟨ht.1, h2, this.1⟩, this.2.1, this.2.2⟩
    | _ =>
      rw [hn] at h2
      have := key _ ht.2.1
      exact ⟨⟨ht.1, h2, this.1⟩, this.2.1, this.2.2⟩

theorem calm_varDecl (hC : CalmCtx C) {f : Expr → LState → Fin Expr} (h : Calms C ps f) {d : VarDecl} {st : LState}
    (hd : CalmStmt C.env ps (.varDecl d)) (hs : CalmSt C ps st) :
    CalmStmt C.env ps (Stmt.finish C f (.varDecl d) st).1 ∧ CalmSt C ps (Stmt.finish C f (.varDecl d) st).2.1 ∧
      (Stmt.finish C f (.varDecl d) st).2.2 ≠ .error .panic := by
  obtain ⟨h1, h2, h3⟩ := hd
  have ht := calm_ty hC h1 hs
  simp only [Stmt.finish, VarDecl.finish]
  generalize d.ty.finish C st = R at *
  rcases R with ⟨t, s, e | r⟩
  · exact ⟨⟨ht.1, h2, h3⟩, ht.2.1, by simpa using ht.2.2⟩
  · simp only at ht ⊢
    have hn := calm_name h2 ht.2.1
    generalize d.name.finish s = R at *
    rcases R with ⟨s', e | ⟨⟩⟩
    · exact ⟨⟨ht.1, h2, h3⟩, hn.1, by simpa using hn.2⟩
    · simp only
      have he := h d.rhs s' h3 hn.1
      generalize f d.rhs s' = R at *
      rcases R with ⟨x, s'', r | r⟩
      · exact ⟨⟨ht.1, h2, he.tree⟩, he.st, by simpa using he.noPanic⟩
      · exact ⟨⟨ht.1, h2, he.tree⟩, he.st, by simp⟩

mutual
theorem calm_stmt (hC : CalmCtx C) {f : Expr → LState → Fin Expr} (h : Calms C ps f) : ∀ (s : Stmt) (st : LState),
    CalmStmt C.env ps s → CalmSt C ps st →
    CalmStmt C.env ps (s.finish C f st).1 ∧ CalmSt C ps (s.finish C f st).2.1 ∧ (s.finish C f st).2.2 ≠ .error .panic
  | .asm a, st, hc, hs => by
    have := calm_asm h (a := a) hc hs
    simpa only [Stmt.finish, CalmStmt] using this
  | .expr e, st, hc, hs => by
    have he := h e st hc hs
    simp only [Stmt.finish]
    generalize f e st = R at *
    rcases R with ⟨x, s, r | r⟩
    · exact ⟨he.tree, he.st, by simpa using he.noPanic⟩
    · exact ⟨he.tree, he.st, by simp⟩
  | .fnDecl d, st, hc, hs => calm_fnDecl hC hc hs
  | .varDecl d, st, hc, hs => calm_varDecl hC h hc hs
  | .block ss, st, hc, hs => by
    have := calm_stmts hC h ss st hc hs
    simpa only [Stmt.finish, CalmStmt] using this
  | .ite c t u, st, hc, hs => by
    simp only [Stmt.finish]
    have h1 := calm_finishCondition h hc.1 hs
    generalize finishCondition f c st = R at *
    rcases R with ⟨c', s, x | x⟩
    · exact ⟨⟨h1.2.1, hc.2⟩, h1.2.2, by simpa using h1.1⟩
    · simp only at h1 ⊢
      have h2 := calm_stmts hC h t s hc.2.1 h1.2.2
      generalize Stmt.finishL C f t s = R at *
      rcases R with ⟨t', s1, y | y⟩
      · exact ⟨⟨h1.2.1, h2.1, hc.2.2⟩, h2.2.1, by simpa using h2.2.2⟩
      · simp only at h2 ⊢
        have h3 := calm_stmts hC h u s1 hc.2.2 h2.2.1
        exact ⟨⟨h1.2.1, h2.1, h3.1⟩, h3.2.1, h3.2.2⟩
  | .doWhile b c, st, hc, hs => by
    simp only [Stmt.finish]
    have h2 := calm_stmts hC h b st hc.1 hs
    generalize Stmt.finishL C f b st = R at *
    rcases R with ⟨t', s1, y | y⟩
    · exact ⟨⟨h2.1, hc.2⟩, h2.2.1, by simpa using h2.2.2⟩
    · simp only at h2 ⊢
      have h1 := calm_finishCondition h hc.2 h2.2.1
      generalize finishCondition f c s1 = R at *
      rcases R with ⟨c', s, x | x⟩
      · exact ⟨⟨h2.1, h1.2.1⟩, h1.2.2, by simpa using h1.1⟩
      · exact ⟨⟨h2.1, h1.2.1⟩, h1.2.2, by simp⟩
theorem calm_stmts (hC : CalmCtx C) {f : Expr → LState → Fin Expr} (h : Calms C ps f) : ∀ (s : List Stmt) (st : LState),
    CalmStmts C.env ps s → CalmSt C ps st →
    CalmStmts C.env ps (Stmt.finishL C f s st).1 ∧ CalmSt C ps (Stmt.finishL C f s st).2.1 ∧
      (Stmt.finishL C f s st).2.2 ≠ .error .panic
  | [], st, _, hs => ⟨trivial, hs, by simp [Stmt.finishL]⟩
  | s :: ss, st, hc, hs => by
    simp only [Stmt.finishL]
    have h1 := calm_stmt hC h s st hc.1 hs
    generalize Stmt.finish C f s st = R at *
    rcases R with ⟨s', s1, y | y⟩
    · exact ⟨⟨h1.1, hc.2⟩, h1.2.1, by simpa using h1.2.2⟩
    · simp only at h1 ⊢
      have h2 := calm_stmts hC h ss s1 hc.2 h1.2.1
      exact ⟨⟨h1.1, h2.1⟩, h2.2.1, h2.2.2⟩
end

theorem calm_body (hC : CalmCtx C) {f : Expr → LState → Fin Expr} (h : Calms C ps f) {b : MacroBody} {st : LState}
    (hb : CalmBody C.env ps b) (hs : CalmSt C ps st) :
    CalmBody C.env ps (b.finish C f st).tree ∧ CalmSt C ps (b.finish C f st).st ∧ (b.finish C f st).res ≠ .error .panic ∧
      ∀ t, (b.finish C f st).res = .ok t → CalmOpt C ps t := by
  cases b with
  | stmt s =>
    simp only [MacroBody.finish]
    have h1 := calm_stmt hC h s st hb hs
    generalize Stmt.finish C f s st = R at *
    rcases R with ⟨s', s1, y | y⟩
    · exact ⟨h1.1, h1.2.1, by simpa using h1.2.2, by simp⟩
    · exact ⟨h1.1, h1.2.1, by simp, fun t ht => by cases ht; exact calmOpt_builtIn⟩
  | expr e =>
    have := h e st hb hs
    exact ⟨this.tree, this.st, this.noPanic, this.ty⟩

end

end CMacro
