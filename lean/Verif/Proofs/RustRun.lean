import Verif.Proofs.RustStmt

/-!
# Generated statements run like the C statements
-/

namespace CMacro
open Spec

/-- The statement `continue;`. -/
def continueStmt : Stmt := .expr (.var (.plain c!"continue"))

section
variable {σ : Type} {Mc : CMeaning σ} {Mr : RMeaning σ}

theorem jumpOf_cont {s : Stmt} (h : jumpOf s = some .cont) : s = continueStmt := by
  unfold jumpOf at h
  split at h
  · rename_i x
    split at h
    · cases h
    · split at h
      · rename_i h1; rw [h1]; rfl
      · split at h <;> cases h
  · cases h

theorem jumpOf_inv {s : Stmt} {o : Out} (h : jumpOf s = some o) : ∃ x r, s = .expr (.var (.plain x)) ∧
    (x, r) ∈ [(c!"break", RStmt.brk), (c!"continue", .cont), (c!"return", .ret)] ∧
    ∀ (Mr : RMeaning σ) (a : σ) o' b, RRun Mr r a o' b ↔ o' = o ∧ a = b := by
  unfold jumpOf at h
  split at h
  · rename_i x
    split at h
    · rename_i h1; cases h
      exact ⟨x, .brk, rfl, by rw [h1]; simp, fun Mr a o' b => ⟨fun h => by cases h; exact ⟨rfl, rfl⟩, by rintro ⟨rfl, rfl⟩; exact .brk⟩⟩
    · split at h
      · rename_i h1; cases h
        exact ⟨x, .cont, rfl, by rw [h1]; simp, fun Mr a o' b => ⟨fun h => by cases h; exact ⟨rfl, rfl⟩, by rintro ⟨rfl, rfl⟩; exact .cont⟩⟩
      · split at h
        · rename_i h1; cases h
          exact ⟨x, .ret, rfl, by rw [h1]; simp, fun Mr a o' b => ⟨fun h => by cases h; exact ⟨rfl, rfl⟩, by rintro ⟨rfl, rfl⟩; exact .ret⟩⟩
        · cases h
  · cases h

/-- Without `continue`, no run ends in one. -/
theorem no_cont {ss : List Stmt} {a : σ} {o : Out} {b : σ} (h : CRuns Mc ss a o b) (hn : continueStmt ∉ leavesOfAll ss) : o ≠ .cont := by
  refine CRuns.rec (motive_1 := fun s _ o _ _ => continueStmt ∉ leavesOf s → o ≠ .cont) (motive_2 := fun ss _ o _ _ => continueStmt ∉ leavesOfAll ss → o ≠ .cont)
    ?_ ?_ ?_ ?_ ?_ ?_ ?_ ?_ ?_ ?_ ?_ ?_ h hn
  · intros; decide
  · rintro s o a h hn rfl
    rw [jumpOf_cont h] at hn
    exact hn (by simp [continueStmt, leavesOf])
  · intro ss a o b _ ih hn
    exact ih (by simpa [leavesOf] using hn)
  · intro c t f a b o d _ _ ih hn
    simp only [leavesOf, List.mem_append, not_or] at hn
    exact ih hn.1
  · intro c t f a b o d _ _ ih hn
    simp only [leavesOf, List.mem_append, not_or] at hn
    exact ih hn.2
  · intros; decide
  · intros; decide
  · intros; decide
  · intro ss c a o b d o' e _ _ _ _ _ ih hn
    exact ih hn
  · intros; decide
  · intro s ss a b o d _ _ _ ih hn
    simp only [leavesOfAll, List.mem_append, not_or] at hn
    exact ih hn.2
  · intro s ss a b o _ _ ih hn
    simp only [leavesOfAll, List.mem_append, not_or] at hn
    exact ih hn.1

variable {P : PCtx} {f : Expr → LState → Fin Expr}

/-- What is assumed of the leaves. -/
def LeafSame (P : PCtx) (f : Expr → LState → Fin Expr) (Mc : CMeaning σ) (Mr : RMeaning σ) (l : Stmt) : Prop :=
  isLeaf l = true → ∀ st l' st', l.finish P.C f st = (l', st', .ok ()) →
    ∃ rs, LeafText P l' rs ∧ ∀ a o b, RRuns Mr rs a o b ↔ o = .normal ∧ Mc.leaf l a b

/-- What is assumed of the conditions. -/
def CondSame (P : PCtx) (f : Expr → LState → Fin Expr) (Mc : CMeaning σ) (Mr : RMeaning σ) (c : Expr) : Prop :=
  ∀ st c' st' ty, finishCondition f c st = ⟨c', st', .ok ty⟩ →
    ∃ t, RustTree P c' t ∧ Separated c' ∧ ∀ a v b, Mr.cond t a v b ↔ Mc.cond c a v b

/-- Names are left alone. -/
def KeepsNames (f : Expr → LState → Fin Expr) : Prop :=
  ∀ x st e' st' t, f (.var (.plain x)) st = ⟨e', st', .ok t⟩ → e' = .var (.plain x)

theorem crun_leaf {s : Stmt} (h : isLeaf s = true) {a : σ} {o : Out} {b : σ} : CRun Mc s a o b ↔ o = .normal ∧ Mc.leaf s a b := by
  constructor
  · intro hr
    cases hr with
    | leaf _ h => exact ⟨rfl, h⟩
    | jump h' =>
      obtain ⟨x, r, rfl, _⟩ := jumpOf_inv (σ := σ) h'
      simp [isLeaf, h'] at h
    | _ => cases h
  · rintro ⟨rfl, h'⟩
    exact .leaf h h'

theorem leaf_compiles {s s' : Stmt} {st st' : LState} (hl : isLeaf s = true) (hs : LeafSame P f Mc Mr s) (h : s.finish P.C f st = (s', st', .ok ())) :
    ∃ rs, Rd (s'.toks P) rs ∧ SameRuns Mc Mr [s] rs := by
  obtain ⟨rs, h1, h2⟩ := hs hl st s' st' h
  refine ⟨rs, leafText_rd h1, fun a o b => ?_⟩
  rw [cruns_one, crun_leaf hl, h2]

theorem jump_compiles (hj : ∀ x ∈ [c!"break", c!"continue", c!"return"], P.C.resolveEnumVariant x = none) (hf : KeepsNames f)
    {s s' : Stmt} {o : Out} {st st' : LState} (hl : jumpOf s = some o) (h : s.finish P.C f st = (s', st', .ok ())) :
    ∃ rs, Rd (s'.toks P) rs ∧ SameRuns Mc Mr [s] rs := by
  obtain ⟨x, r, rfl, hx, hr⟩ := jumpOf_inv (σ := σ) hl
  rw [Stmt.finish] at h
  obtain rfl : s' = .expr (.var (.plain x)) := by
    split at h
    · cases h
    · rename_i he
      cases h
      rw [hf _ _ _ _ _ he]
  have hxm : x ∈ [c!"break", c!"continue", c!"return"] := by
    have := List.mem_map.2 ⟨_, hx, (rfl : Prod.fst (x, r) = x)⟩
    exact this
  have ht : (Stmt.expr (.var (.plain x))).toks P = [.id x, .punct c!";"] := by
    have h1 := hj x hxm
    have h2 : ∀ x ∈ [c!"break", c!"continue", c!"return"], x ≠ c!"__LINE__" ∧ x ≠ c!"__FILE__" ∧ limitName x = none := by decide
    obtain ⟨h3, h4, h5⟩ := h2 x hxm
    simp [Stmt.toks, Expr.toks, varToks, h1, h3, h4, h5]
  refine ⟨[r], ht ▸ Rd.jump hx, fun a o' b => ?_⟩
  rw [cruns_one, rruns_one, hr]
  constructor
  · intro hrun
    cases hrun with
    | leaf h' _ => simp [isLeaf, hl] at h'
    | jump h' => rw [hl] at h'; cases h'; exact ⟨rfl, rfl⟩
  · rintro ⟨rfl, rfl⟩
    exact .jump hl

theorem sepToks_cons2 (x y : List RTok) (ys : List (List RTok)) : sepToks q!";" (x :: y :: ys) = x ++ ([.punct c!";"] ++ sepToks q!";" (y :: ys)) := by
  simp [sepToks]

mutual

theorem continuesDo_leaf : ∀ {s : Stmt}, continuesDo s → continueStmt ∈ leavesOf s
  | .block ss, h => by rw [continuesDo] at h; rw [leavesOf]; exact continuesDoAny_leaf h
  | .ite _ t f, h => by
    rw [continuesDo] at h
    rw [leavesOf, List.mem_append]
    exact h.imp continuesDoAny_leaf continuesDoAny_leaf
  | .doWhile b _, h => by rw [continuesDo] at h; rw [leavesOf]; exact h
  | .asm _, h => by rw [continuesDo] at h; cases h; all_goals simp
  | .expr _, h => by rw [continuesDo] at h; cases h; all_goals simp
  | .fnDecl _, h => by rw [continuesDo] at h; cases h; all_goals simp
  | .varDecl _, h => by rw [continuesDo] at h; cases h; all_goals simp

theorem continuesDoAny_leaf : ∀ {ss : List Stmt}, continuesDoAny ss → continueStmt ∈ leavesOfAll ss
  | [], h => by rw [continuesDoAny] at h; cases h
  | s :: ss, h => by
    rw [continuesDoAny] at h
    rw [leavesOfAll, List.mem_append]
    exact h.imp continuesDo_leaf continuesDoAny_leaf

end

mutual

theorem stmt_compiles (hj : ∀ x ∈ [c!"break", c!"continue", c!"return"], P.C.resolveEnumVariant x = none) (hf : KeepsNames f) :
    ∀ (s : Stmt) {s' : Stmt} {st st' : LState}, s.finish P.C f st = (s', st', .ok ()) → (∀ l ∈ leavesOf s, LeafSame P f Mc Mr l) →
      (∀ c ∈ condsOf s, CondSame P f Mc Mr c) → ¬ continuesDo s → ∃ rs, Rd (s'.toks P) rs ∧ SameRuns Mc Mr [s] rs
  | .asm a, s', st, st', h, hl, hc, hn => leaf_compiles rfl (hl _ (by simp [leavesOf])) h
  | .fnDecl d, s', st, st', h, hl, hc, hn => leaf_compiles rfl (hl _ (by simp [leavesOf])) h
  | .varDecl d, s', st, st', h, hl, hc, hn => leaf_compiles rfl (hl _ (by simp [leavesOf])) h
  | .expr e, s', st, st', h, hl, hc, hn => by
    cases hj' : jumpOf (.expr e) with
    | some o => exact jump_compiles hj hf hj' h
    | none => exact leaf_compiles (by simp [isLeaf, hj']) (hl _ (by simp [leavesOf])) h
  | .block ss, s', st, st', h, hl, hc, hn => by
    rw [Stmt.finish] at h
    cases hx : Stmt.finishL P.C f ss st with
    | mk ss' r =>
      obtain ⟨st1, r⟩ := r
      rw [hx] at h
      cases h
      obtain ⟨rs, _, h1, h2, _⟩ := stmts_compile hj hf ss hx (by simpa [leavesOf] using hl) (by simpa [condsOf] using hc) (by simpa [continuesDo] using hn)
      refine ⟨_, ?_, h2.block⟩
      rw [Stmt.toks]
      exact h1.block
  | .ite c t u, s', st, st', h, hl, hc, hn => by
    rw [Stmt.finish] at h
    simp only [leavesOf, List.mem_append, condsOf, List.mem_cons, continuesDo, not_or] at hl hc hn
    cases hx : finishCondition f c st with
    | mk c' st1 r =>
      rw [hx] at h
      cases r with
      | error e => cases h
      | ok ty =>
        dsimp only at h
        cases hx1 : Stmt.finishL P.C f t st1 with
        | mk t' r =>
          obtain ⟨st2, r⟩ := r
          rw [hx1] at h
          cases r with
          | error e => cases h
          | ok _ =>
            dsimp only at h
            cases hx2 : Stmt.finishL P.C f u st2 with
            | mk u' r =>
              obtain ⟨st3, r⟩ := r
              rw [hx2] at h
              cases h
              obtain ⟨ct, hc1, hc2, hc3⟩ := hc c (.inl rfl) _ _ _ _ hx
              have hcb := rustTree_readsBack hc1 hc2
              obtain ⟨rs, _, h1, h2, _⟩ := stmts_compile hj hf t hx1 (fun l h => hl l (.inl h)) (fun c h => hc c (.inr (.inl h))) hn.1
              obtain ⟨_, qs, _, _, h3, h4⟩ := stmts_compile hj hf u hx2 (fun l h => hl l (.inr h)) (fun c h => hc c (.inr (.inr h))) hn.2
              refine ⟨_, ?_, h2.ite hc3 h4⟩
              have hcw : ∀ n rest, Ender rest → 2 * (c'.toks P).length < n → rExpr n 14 (c'.toks P ++ rest) = some (ct, rest) :=
                fun n rest hr hn => hcb.whole hn hr
              cases u' with
              | nil =>
                rw [Stmt.toksL, sepToks] at h3
                obtain rfl : qs = [] := by have := h3.len; simpa using this
                have := Rd.ite hcw h1
                rw [Stmt.toks.eq_def]
                simpa using this
              | cons v vs =>
                have := Rd.iteElse hcw h1 h3
                rw [Stmt.toks.eq_def]
                simpa using this
  | .doWhile ss c, s', st, st', h, hl, hc, hn => by
    rw [Stmt.finish] at h
    simp only [leavesOf, List.mem_append, condsOf, List.mem_singleton, continuesDo] at hl hc hn
    cases hx : Stmt.finishL P.C f ss st with
    | mk ss' r =>
      obtain ⟨st1, r⟩ := r
      rw [hx] at h
      cases r with
      | error e => cases h
      | ok _ =>
        dsimp only at h
        cases hx1 : finishCondition f c st1 with
        | mk c' st2 r =>
          rw [hx1] at h
          cases r with
          | error e => cases h
          | ok ty =>
            cases h
            obtain ⟨ct, hc1, hc2, hc3⟩ := hc c (.inr rfl) _ _ _ _ hx1
            have hcb := rustTree_readsBack hc1 hc2
            obtain ⟨rs, _, h1, h2, _⟩ := stmts_compile hj hf ss hx hl (fun c h => hc c (.inl h)) (fun h => hn (continuesDoAny_leaf h))
            refine ⟨_, ?_, h2.loop hc3 fun a b hr => no_cont hr hn rfl⟩
            have := loop_rd h1 (fun n rest hr hn => hcb.whole hn hr : ∀ n rest, Ender rest → 2 * (c'.toks P).length < n →
              rExpr n 14 (c'.toks P ++ rest) = some (ct, rest))
            rw [Stmt.toks]
            simpa using this

theorem stmts_compile (hj : ∀ x ∈ [c!"break", c!"continue", c!"return"], P.C.resolveEnumVariant x = none) (hf : KeepsNames f) :
    ∀ (ss : List Stmt) {ss' : List Stmt} {st st' : LState}, Stmt.finishL P.C f ss st = (ss', st', .ok ()) → (∀ l ∈ leavesOfAll ss, LeafSame P f Mc Mr l) →
      (∀ c ∈ condsOfAll ss, CondSame P f Mc Mr c) → ¬ continuesDoAny ss →
      ∃ rs qs, Rd (Stmt.toksL P ss').flatten rs ∧ SameRuns Mc Mr ss rs ∧ Rd (sepToks q!";" (Stmt.toksL P ss')) qs ∧ SameRuns Mc Mr ss qs
  | [], ss', st, st', h, hl, hc, hn => by
    rw [Stmt.finishL] at h
    cases h
    exact ⟨[], [], .nil, .nil, .nil, .nil⟩
  | s :: ss, ss', st, st', h, hl, hc, hn => by
    rw [Stmt.finishL] at h
    simp only [leavesOfAll, List.mem_append, condsOfAll, continuesDoAny, not_or] at hl hc hn
    cases hx : s.finish P.C f st with
    | mk s' r =>
      obtain ⟨st1, r⟩ := r
      rw [hx] at h
      cases r with
      | error e => cases h
      | ok _ =>
        dsimp only at h
        cases hx1 : Stmt.finishL P.C f ss st1 with
        | mk us r =>
          obtain ⟨st2, r⟩ := r
          rw [hx1] at h
          cases h
          obtain ⟨rs, h1, h2⟩ := stmt_compiles hj hf s hx (fun l h => hl l (.inl h)) (fun c h => hc c (.inl h)) hn.1
          obtain ⟨rs', qs', h3, h4, h5, h6⟩ := stmts_compile hj hf ss hx1 (fun l h => hl l (.inr h)) (fun c h => hc c (.inr h)) hn.2
          rw [Stmt.toksL]
          cases us with
          | nil =>
            refine ⟨rs ++ rs', rs ++ qs', ?_, h2.cons h4, ?_, h2.cons h6⟩
            · rw [List.flatten_cons]; exact h1.append h3
            · rw [Stmt.toksL] at h5 ⊢
              have := h1.append h5
              simpa [sepToks] using this
          | cons u us =>
            refine ⟨rs ++ rs', rs ++ (.empty :: qs'), ?_, h2.cons h4, ?_, h2.cons h6.empty⟩
            · rw [List.flatten_cons]; exact h1.append h3
            · rw [Stmt.toksL] at h5 ⊢
              rw [sepToks_cons2]
              exact h1.append (Rd.empty.append h5)

end

end

end CMacro
