import Verif.Proofs.RustRun
import Verif.Props.Types

/-!
# Statements run like in C

Properties C61.
-/

namespace CMacro
open Spec

/-- Finishing an expression leaves a name as it is. -/
theorem finish_keepsNames (C : Ctx) (L : Loc) (n : Nat) : KeepsNames (Expr.finish C L n) := by
  intro x st e' st' t h
  cases n with
  | zero => cases h
  | succ n =>
    rw [Expr.finish, finishStep] at h
    dsimp only at h
    injection h with h _ _
    exact h.symm

/-- Where the code of a function-like macro is printed. -/
def GenFn.place (C : Ctx) (m : FnMacro) : GenFn → PCtx
  | .macro _ _ _ => ⟨C, fnLoc m.args, true⟩
  | .fn _ _ _ _ => ⟨C, fnLoc m.args, false⟩

/-- The code of a function-like macro. -/
def GenFn.code : GenFn → List RTok
  | .macro _ _ ts => ts
  | .fn _ _ _ ts => ts

/-- C61: let a statement be generated for a function-like macro.  The code is a sequence of Rust statements, and if the
expression statements, declarations and conditions of it do what those of C do, then both have the same runs: the same
results, after the same ends (normal, `break`, `continue`, `return`), and one runs forever where the other does. -/
def C61_statement : Prop :=
  ∀ (σ : Type) (C : Ctx) (m : FnMacro) (s : Stmt) (n : Nat) (g : GenFn) (Mc : CMeaning σ) (Mr : RMeaning σ),
    m.body = .stmt s → m.generate n C = .ok g → SameParts (g.place C m) (Expr.finish C (fnLoc m.args) n) Mc Mr s →
    ∃ rs, rustStmts g.code = some rs ∧ ∀ a o b, CRun Mc s a o b ↔ RRuns Mr rs a o b

/-- C61, for statements with no `continue` in a `do … while`. -/
theorem C61_partial (σ : Type) (C : Ctx) (m : FnMacro) (s : Stmt) (n : Nat) (g : GenFn) (Mc : CMeaning σ) (Mr : RMeaning σ)
    (hs : m.body = .stmt s) (hg : m.generate n C = .ok g) (hp : SameParts (g.place C m) (Expr.finish C (fnLoc m.args) n) Mc Mr s)
    (hn : ¬ continuesDo s) :
    ∃ rs, rustStmts g.code = some rs ∧ ∀ a o b, CRun Mc s a o b ↔ RRuns Mr rs a o b := by
  unfold FnMacro.generate at hg
  rw [hs] at hg
  cases ht : argTypes C m.name m.args with
  | error e => rw [ht] at hg; cases hg
  | ok tys =>
    rw [ht] at hg
    dsimp only at hg
    rw [MacroBody.finish] at hg
    cases hx : s.finish C (Expr.finish C (fnLoc m.args) n) ⟨tys, false⟩ with
    | mk s' r =>
      obtain ⟨st, r⟩ := r
      rw [hx] at hg
      cases r with
      | error e => cases hg
      | ok _ =>
        dsimp only at hg
        have key : ∀ P : PCtx, P.C = C → SameParts P (Expr.finish C (fnLoc m.args) n) Mc Mr s →
            ∃ rs, rustStmts (s'.toks P) = some rs ∧ ∀ a o b, CRun Mc s a o b ↔ RRuns Mr rs a o b := by
          rintro P rfl hp
          obtain ⟨rs, h1, h2⟩ := stmt_compiles (P := P) (Mc := Mc) (Mr := Mr) hp.jump (finish_keepsNames _ _ _) s hx hp.leaf hp.cond hn
          refine ⟨rs, ?_, fun a o b => ?_⟩
          · have := h1.body (4 * (s'.toks P).length + 4) [] (by omega)
            rw [rustStmts, this]
          · rw [← h2, cruns_one]
        generalize (st.exportAsMacro || (C.function m.name).isSome || namesVariadic m.args || !st.argTypes.all ArgTy.isKnown
          || Option.isNone (some (Ty.builtIn .void))) = x at hg
        cases x <;> simp only [Bool.false_eq_true, if_false, if_true] at hg <;> split at hg <;> cases hg
        · exact key _ rfl hp
        · exact key _ rfl hp

/-! ## Examples -/

/-- `do { if ( e ) JUMP ; f ( ) ; } while ( c )`. -/
def loopWith (jump : Str) : Stmt :=
  .doWhile [.ite (.var (.plain c!"e")) [.expr (.var (.plain jump))] [], .expr (.call (.plain c!"f") [])] (.var (.plain c!"c"))

/-- The macro with this body. -/
def loopMacro (jump : Str) : FnMacro := ⟨c!"M", [], .stmt (loopWith jump)⟩

/-- `loop { if e != 0 { JUMP ; } f ( ) ; if c != 0 { continue } break }`. -/
def loopToks (jump : Str) : List RTok :=
  q!"loop { if e !=" ++ .int 0 [] :: .punct c!"{" :: .id jump :: q!"; } f ( ) ; if c !=" ++ .int 0 [] :: q!"{ continue } break }"

/-- What is generated for it. -/
theorem loop_code (j : Str) (hj : j ∈ [c!"break", c!"continue", c!"return"]) : (loopMacro j).generate 9 (.unit asciiEnv) = .ok (.macro c!"M" [] (loopToks j)) := by
  simp only [List.mem_cons, List.not_mem_nil, or_false] at hj
  rcases hj with rfl | rfl | rfl <;> rfl

/-- `f ( )` counts; `e` is whether the count has reached `n`, and `c` is always true or always false. -/
def countC (n : Nat) (c : Bool) : CMeaning Nat where
  leaf _ a b := b = a + 1
  cond e a v b := b = a ∧ v = if e = .var (.plain c!"e") then decide (n ≤ a) else c

/-- The same for the code that is generated. -/
def countR (n : Nat) (c : Bool) : RMeaning Nat where
  leaf _ a b := b = a + 1
  decl _ _ _ _ _ _ := False
  bind _ _ _ _ := False
  cond t a v b := b = a ∧ v = match t with | .bin _ (.name [.id x]) _ => if x = c!"e" then decide (n ≤ a) else c | _ => c

theorem loop_parts (j : Str) (hj : j ∈ [c!"break", c!"continue", c!"return"]) (n : Nat) (c : Bool) :
    SameParts ⟨.unit asciiEnv, fnLoc [], true⟩ (Expr.finish (.unit asciiEnv) (fnLoc []) 9) (countC n c) (countR n c) (loopWith j) where
  leaf := by
    have hjump : isLeaf (.expr (.var (.plain j))) = false := (by decide : ∀ j ∈ [c!"break", c!"continue", c!"return"], isLeaf (.expr (.var (.plain j))) = false) j hj
    intro l hl hleaf st l' st' h
    have hl' : l = .expr (.var (.plain j)) ∨ l = .expr (.call (.plain c!"f") []) := by
      simpa [loopWith, leavesOf, leavesOfAll] using hl
    rcases hl' with rfl | rfl
    · rw [hjump] at hleaf; cases hleaf
    · cases h
      refine ⟨_, .expr (.call (by decide) (by decide) .nil) (by simp [Separated, SeparatedAll]) rfl, fun a o b => ?_⟩
      rw [rruns_one]
      constructor
      · intro h; cases h with | leaf h => exact ⟨rfl, h⟩
      · rintro ⟨rfl, h⟩; exact .leaf h
  cond := by
    intro e he st c' st' ty h
    have hzero : Separated (.lit (.int ⟨0, none⟩)) := by simp [Separated]
    have he' : e = .var (.plain c!"e") ∨ e = .var (.plain c!"c") := by
      simpa [loopWith, condsOf, condsOfAll] using he
    rcases he' with rfl | rfl
    · have h1 : finishCondition (Expr.finish (.unit asciiEnv) (fnLoc []) 9) (.var (.plain c!"e")) st =
        ⟨.bin (.var (.plain c!"e")) .neq (.lit (.int ⟨0, none⟩)), st.export, .ok (some (.builtIn .bool))⟩ := rfl
      rw [h1] at h
      cases h
      exact ⟨_, .bin rfl (.plain (by decide) (by decide) rfl) .int, by simp [Separated], fun a v b => Iff.rfl⟩
    · have h1 : finishCondition (Expr.finish (.unit asciiEnv) (fnLoc []) 9) (.var (.plain c!"c")) st =
        ⟨.bin (.var (.plain c!"c")) .neq (.lit (.int ⟨0, none⟩)), st.export, .ok (some (.builtIn .bool))⟩ := rfl
      rw [h1] at h
      cases h
      exact ⟨_, .bin rfl (.plain (by decide) (by decide) rfl) .int, by simp [Separated], fun a v b => Iff.rfl⟩
  jump := fun _ _ => rfl

/-- `do { if ( e ) break ; f ( ) ; } while ( c )` calls `f` as often as the code generated for it. -/
example (n : Nat) (c : Bool) : ∃ rs,
    rustStmts (loopToks c!"break") = some rs ∧
    ∀ a o b, CRun (countC n c) (loopWith c!"break") a o b ↔ RRuns (countR n c) rs a o b :=
  C61_partial Nat (.unit asciiEnv) (loopMacro c!"break") _ 9 _ _ _ rfl (loop_code _ (by decide)) (loop_parts _ (by decide) n c)
    (by simp [loopWith, continuesDo, leavesOf, leavesOfAll])

/-! ## The full claim is false -/

/-- A loop whose body always ends in `continue` has no run that ends. -/
theorem loop_forever {σ : Type} {M : RMeaning σ} {ss : List RStmt} (h : ∀ a o b, RRuns M ss a o b → o = .cont) {a b : σ} {o : Out} :
    ¬ RRun M (.loop ss) a o b := by
  intro hr
  have key : ∀ {s a o b}, RRun M s a o b → s = .loop ss → False := by
    intro s a o b hr
    refine RRun.rec (motive_1 := fun s _ _ _ _ => s = .loop ss → False) (motive_2 := fun _ _ _ _ _ => True)
      ?_ ?_ ?_ ?_ ?_ ?_ ?_ ?_ ?_ ?_ ?_ ?_ ?_ ?_ ?_ ?_ hr
    all_goals intros
    all_goals first
      | trivial
      | (rename_i h; cases h; done)
      | skip
    · rename_i h1 _ h2; cases h2; cases h _ _ _ h1
    · rename_i h1 _ h2; cases h2; cases h _ _ _ h1
  exact key hr rfl

/-- The full claim is false: for `do { if ( e ) continue ; f ( ) ; } while ( c )` the code is
`loop { if e != 0 { continue ; } f ( ) ; if c != 0 { continue } break }`, which does not look at `c` after the `continue`.
With `e` true and `c` false, the C statement ends and the Rust statement does not. -/
theorem C61_false : ¬ C61_statement := by
  intro h
  obtain ⟨rs, h1, h2⟩ := h Nat (.unit asciiEnv) (loopMacro c!"continue") _ 9 _ (countC 0 false) (countR 0 false) rfl (loop_code _ (by decide)) (loop_parts _ (by decide) 0 false)
  have h3 : rustStmts (loopToks c!"continue") =
    some [.loop [.ite (.bin c!"!=" (.name [.id c!"e"]) (.num 0)) [.cont] [], .leaf (.call (.name [.id c!"f"]) []),
      .ite (.bin c!"!=" (.name [.id c!"c"]) (.num 0)) [.cont] [], .brk]] := rfl
  have h4 := h1.symm.trans h3
  cases h4
  have hc : CRun (countC 0 false) (loopWith c!"continue") 0 .normal 0 :=
    .doEnd (o := .cont) (.stop (.iteTrue (b := 0) (by simp [countC]) (.stop (.jump rfl) (by decide))) (by decide)) (.inr rfl) (by simp [countC])
  have hr := (h2 0 .normal 0).1 hc
  rw [rruns_one] at hr
  refine loop_forever (fun a o b hb => ?_) hr
  have hif : ∀ {a o b}, RRun (countR 0 false) (.ite (.bin c!"!=" (.name [.id c!"e"]) (.num 0)) [.cont] []) a o b → o = .cont := by
    intro a o b h
    cases h with
    | iteTrue hc h =>
      rw [rruns_one] at h
      cases h
      rfl
    | iteFalse hc _ => simp [countR] at hc
  cases hb with
  | cons h _ => cases hif h
  | stop h _ => exact hif h

end CMacro
