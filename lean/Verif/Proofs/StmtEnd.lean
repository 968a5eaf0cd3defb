import Verif.Proofs.FinishEnd

/-!
# Code generation terminates

Statements and macro bodies, on top of `finish_ends`.
-/

namespace CMacro

theorem finishOutputs_ends {C : Ctx} {L : Loc} : ∀ (es : List (Dir × RegConstraint × Expr)) (st : LState),
    ∃ r N, r.2.2 ≠ .error .diverge ∧ ∀ n ≥ N, finishOutputs (Expr.finish C L n) es st = r
  | [], st => ⟨([], st, .ok ()), 0, by simp, fun n _ => rfl⟩
  | (d, c, e) :: es, st => by
    obtain ⟨r, hd, N, hN⟩ := finish_ends C L e st
    rcases r with ⟨x, s, r | r⟩
    · exact ⟨((d, c, x) :: es, s, .error r), N, by simpa using hd, fun n hn => by simp [finishOutputs, hN n hn]⟩
    · obtain ⟨r', M, hd', hM⟩ := finishOutputs_ends (C := C) (L := L) es s
      exact ⟨((d, c, x) :: r'.1, r'.2.1, r'.2.2), max N M, hd', fun n hn => by
        simp only [finishOutputs, hN n (by omega), hM n (by omega)]⟩

theorem finishInputs_ends {C : Ctx} {L : Loc} : ∀ (es : List (RegConstraint × Expr)) (st : LState),
    ∃ r N, r.2.2 ≠ .error .diverge ∧ ∀ n ≥ N, finishInputs (Expr.finish C L n) es st = r
  | [], st => ⟨([], st, .ok ()), 0, by simp, fun n _ => rfl⟩
  | (c, e) :: es, st => by
    obtain ⟨r, hd, N, hN⟩ := finish_ends C L e st
    rcases r with ⟨x, s, r | r⟩
    · exact ⟨((c, x) :: es, s, .error r), N, by simpa using hd, fun n hn => by simp [finishInputs, hN n hn]⟩
    · obtain ⟨r', M, hd', hM⟩ := finishInputs_ends (C := C) (L := L) es s
      exact ⟨((c, x) :: r'.1, r'.2.1, r'.2.2), max N M, hd', fun n hn => by
        simp only [finishInputs, hN n (by omega), hM n (by omega)]⟩

theorem Asm.finish_ends {C : Ctx} {L : Loc} (a : Asm) (st : LState) :
    ∃ r N, r.2.2 ≠ .error .diverge ∧ ∀ n ≥ N, Asm.finish (Expr.finish C L n) a st = r := by
  obtain ⟨⟨os, s, r⟩, N, hd, hN⟩ := finishOutputs_ends (C := C) (L := L) a.outputs st
  rcases r with r | r
  · exact ⟨({ a with outputs := os }, s, .error r), N, by simpa using hd, fun n hn => by simp only [Asm.finish, hN n hn]⟩
  · obtain ⟨⟨is, s', r'⟩, M, hd', hM⟩ := finishInputs_ends (C := C) (L := L) a.inputs s
    rcases r' with r' | r'
    · exact ⟨({ a with outputs := os, inputs := is }, s', .error r'), max N M, hd', fun n hn => by
        simp only [Asm.finish, hN n (by omega), hM n (by omega)]⟩
    · exact ⟨({ a with outputs := os, inputs := is }, if a.isGlobal then s'.export else s', .ok ()), max N M,
        by simp, fun n hn => by simp only [Asm.finish, hN n (by omega), hM n (by omega)]⟩

theorem finishDeclArgs_ne (C : Ctx) : ∀ (as : List (Ty × IdentExpr)) (st : LState),
    (finishDeclArgs C as st).2.2 ≠ .error .diverge
  | [], st => by simp [finishDeclArgs]
  | (t, n) :: as, st => by
    have ht := Ty.finish_ne C t st
    simp only [finishDeclArgs]
    generalize t.finish C st = R at *
    rcases R with ⟨t', s, r | r⟩
    · simpa using ht
    · exact finishDeclArgs_ne C as s

theorem FunctionDecl.finish_ne (C : Ctx) (d : FunctionDecl) (st : LState) :
    (d.finish C st).2.2 ≠ .error .diverge := by
  unfold FunctionDecl.finish
  have ht := Ty.finish_ne C d.retTy st
  generalize d.retTy.finish C st = R at *
  rcases R with ⟨t', s, r | r⟩
  · simpa using ht
  · simp only
    split
    · rename_i s' x hx
      split at hx
      · split at hx <;> cases hx
        simp
      · cases hx
    · exact finishDeclArgs_ne C d.args _

theorem VarDecl.finish_ends {C : Ctx} {L : Loc} (d : VarDecl) (st : LState) :
    ∃ r N, r.2.2 ≠ .error .diverge ∧ ∀ n ≥ N, VarDecl.finish C (Expr.finish C L n) d st = r := by
  have ht := Ty.finish_ne C d.ty st
  rcases h : d.ty.finish C st with ⟨t, s, r | r⟩
  · rw [h] at ht
    exact ⟨({ d with ty := t }, s, .error r), 0, by simpa using ht, fun n _ => by simp only [VarDecl.finish, h]⟩
  · have hn := IdentExpr.finish_ne d.name s
    rcases h' : d.name.finish s with ⟨s', r' | r'⟩
    · rw [h'] at hn
      exact ⟨({ d with ty := t }, s', .error r'), 0, hn, fun n _ => by simp only [VarDecl.finish, h, h']⟩
    · obtain ⟨⟨x, s2, z | z⟩, hd, N, hN⟩ := CMacro.finish_ends C L d.rhs s'
      · exact ⟨({ d with ty := t, rhs := x }, s2, .error z), N, by simpa using hd, fun n hn => by
          simp only [VarDecl.finish, h, h', hN n hn]⟩
      · exact ⟨({ d with ty := t, rhs := x }, s2, .ok ()), N, by simp, fun n hn => by
          simp only [VarDecl.finish, h, h', hN n hn]⟩

mutual
theorem Stmt.finish_ends {C : Ctx} {L : Loc} : ∀ (s : Stmt) (st : LState),
    ∃ r N, r.2.2 ≠ .error .diverge ∧ ∀ n ≥ N, Stmt.finish C (Expr.finish C L n) s st = r
  | .asm a, st => by
    obtain ⟨r, N, hd, hN⟩ := Asm.finish_ends (C := C) (L := L) a st
    exact ⟨(.asm r.1, r.2.1, r.2.2), N, by simpa using hd, fun n hn => by simp only [Stmt.finish, hN n hn]⟩
  | .expr e, st => by
    obtain ⟨⟨x, s, r | r⟩, hd, N, hN⟩ := CMacro.finish_ends C L e st
    · exact ⟨(.expr x, s, .error r), N, by simpa using hd, fun n hn => by simp only [Stmt.finish, hN n hn]⟩
    · exact ⟨(.expr x, s, .ok ()), N, by simp, fun n hn => by simp only [Stmt.finish, hN n hn]⟩
  | .fnDecl d, st =>
    ⟨(.fnDecl (d.finish C st).1, (d.finish C st).2.1, (d.finish C st).2.2), 0, FunctionDecl.finish_ne C d st,
      fun n _ => by simp only [Stmt.finish]⟩
  | .varDecl d, st => by
    obtain ⟨r, N, hd, hN⟩ := VarDecl.finish_ends (C := C) (L := L) d st
    exact ⟨(.varDecl r.1, r.2.1, r.2.2), N, by simpa using hd, fun n hn => by simp only [Stmt.finish, hN n hn]⟩
  | .block ss, st => by
    obtain ⟨r, N, hd, hN⟩ := Stmt.finishL_ends (C := C) (L := L) ss st
    exact ⟨(.block r.1, r.2.1, r.2.2), N, by simpa using hd, fun n hn => by simp only [Stmt.finish, hN n hn]⟩
  | .ite c t u, st => by
    obtain ⟨⟨c', s, x | x⟩, N, hd, hN⟩ := finishCondition_ends (CMacro.finish_ends C L c) st
    · exact ⟨(.ite c' t u, s, .error x), N, by simpa using hd, fun n hn => by simp only [Stmt.finish, hN n hn]⟩
    · obtain ⟨⟨t', s1, y | y⟩, M, hd', hM⟩ := Stmt.finishL_ends (C := C) (L := L) t s
      · exact ⟨(.ite c' t' u, s1, .error y), max N M, hd', fun n hn => by
          simp only [Stmt.finish, hN n (by omega), hM n (by omega)]⟩
      · obtain ⟨r, K, hd'', hK⟩ := Stmt.finishL_ends (C := C) (L := L) u s1
        exact ⟨(.ite c' t' r.1, r.2.1, r.2.2), max (max N M) K, hd'', fun n hn => by
          simp only [Stmt.finish, hN n (by omega), hM n (by omega), hK n (by omega)]⟩
  | .doWhile b c, st => by
    obtain ⟨⟨b', s1, y | y⟩, M, hd', hM⟩ := Stmt.finishL_ends (C := C) (L := L) b st
    · exact ⟨(.doWhile b' c, s1, .error y), M, hd', fun n hn => by
        simp only [Stmt.finish, hM n (by omega)]⟩
    · obtain ⟨⟨c', s, x | x⟩, N, hd, hN⟩ := finishCondition_ends (CMacro.finish_ends C L c) s1
      · exact ⟨(.doWhile b' c', s, .error x), max N M, by simpa using hd, fun n hn => by
          simp only [Stmt.finish, hN n (by omega), hM n (by omega)]⟩
      · exact ⟨(.doWhile b' c', s, .ok ()), max N M, by simp, fun n hn => by
          simp only [Stmt.finish, hN n (by omega), hM n (by omega)]⟩
theorem Stmt.finishL_ends {C : Ctx} {L : Loc} : ∀ (s : List Stmt) (st : LState),
    ∃ r N, r.2.2 ≠ .error .diverge ∧ ∀ n ≥ N, Stmt.finishL C (Expr.finish C L n) s st = r
  | [], st => ⟨([], st, .ok ()), 0, by simp, fun n _ => by simp only [Stmt.finishL]⟩
  | s :: ss, st => by
    obtain ⟨⟨s', s1, y | y⟩, N, hd, hN⟩ := Stmt.finish_ends (C := C) (L := L) s st
    · exact ⟨(s' :: ss, s1, .error y), N, by simpa using hd, fun n hn => by simp only [Stmt.finishL, hN n hn]⟩
    · obtain ⟨r, M, hd', hM⟩ := Stmt.finishL_ends (C := C) (L := L) ss s1
      exact ⟨(s' :: r.1, r.2.1, r.2.2), max N M, hd', fun n hn => by
        simp only [Stmt.finishL, hN n (by omega), hM n (by omega)]⟩
end

theorem MacroBody.finish_ends {C : Ctx} {L : Loc} (b : MacroBody) (st : LState) :
    ∃ r N, r.res ≠ .error .diverge ∧ ∀ n ≥ N, MacroBody.finish C (Expr.finish C L n) b st = r := by
  cases b with
  | stmt s =>
    obtain ⟨⟨s', s1, y | y⟩, N, hd, hN⟩ := Stmt.finish_ends (C := C) (L := L) s st
    · exact ⟨⟨.stmt s', s1, .error y⟩, N, by simpa using hd, fun n hn => by simp only [MacroBody.finish, hN n hn]⟩
    · exact ⟨⟨.stmt s', s1, .ok (some (.builtIn .void))⟩, N, by simp, fun n hn => by
        simp only [MacroBody.finish, hN n hn]⟩
  | expr e =>
    obtain ⟨⟨x, s, r⟩, hd, N, hN⟩ := CMacro.finish_ends C L e st
    exact ⟨⟨.expr x, s, r⟩, N, by simpa using hd, fun n hn => by simp only [MacroBody.finish, hN n hn]⟩

theorem argTypes_ne (C : Ctx) (name : Str) : ∀ as, argTypes C name as ≠ .error .diverge
  | [] => by simp [argTypes]
  | a :: as => by
    simp only [argTypes]
    split
    · rename_i e he
      split at he
      · rename_i t _
        have := Ty.fromRust_ne C.ffiPrefix t
        generalize Ty.fromRust C.ffiPrefix t = R at *
        rcases R with e' | e'
        · cases he; simpa using this
        · cases he
      · cases he
    · have := argTypes_ne C name as
      generalize argTypes C name as = R at *
      rcases R with e' | e' <;> simp at this ⊢
      exact this

end CMacro
