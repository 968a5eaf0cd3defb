import Verif.Spec.RustStmt
import Verif.Proofs.RustSyntax

/-!
# Reading printed statements
-/

namespace CMacro
open Spec

variable {P : PCtx}

/-! ## Expressions as statements -/

/-- The first token of an expression begins no other statement, except a block or an `if`. -/
def LeafHead (x : RTok) : Prop :=
  (∀ p, x = .punct p → p ≠ c!";" ∧ p ≠ c!"}") ∧ ∀ y, x = .id y → y ∈ rustKeywords → y = c!"if" ∨ y ∈ pathRoots

theorem leafHead {n k : Nat} {x : RTok} {ts : List RTok} {y : RExpr × List RTok} (h : rExpr n k (x :: ts) = some y) : LeafHead x := by
  cases n with
  | zero => cases h
  | succ n =>
    rw [rExpr] at h
    cases n with
    | zero => simp [rPre] at h
    | succ n =>
      refine ⟨?_, ?_⟩
      · rintro p rfl
        refine ⟨?_, ?_⟩ <;> rintro rfl <;> simp [rPre] at h
      · rintro y rfl hy
        by_cases hi : y = c!"if"
        · exact .inl hi
        · by_cases hp : y ∈ pathRoots
          · exact .inr hp
          · simp [rPre, hy, hi, hp] at h

theorem rStmt_punct (n : Nat) (p : Str) (ts : List RTok) : rStmt (n + 1) (.punct p :: ts) =
    if p = c!";" then some (.empty, ts)
    else if p = c!"{" then (rBody n ts).map fun (ss, rest) => (.block ss, rest)
    else rLeaf n (.punct p :: ts) := by
  conv => lhs; unfold rStmt

theorem rStmt_id (n : Nat) (x : Str) (ts : List RTok) : rStmt (n + 1) (.id x :: ts) =
    if x = c!"if" then
      match rExpr n 14 ts with
      | some (c, .punct p :: ts) =>
        if p = c!"{" then
          match rBody n ts with
          | none => none
          | some (t, .id e :: .punct q :: rest) =>
            if e = c!"else" ∧ q = c!"{" then (rBody n rest).map fun (f, rest) => (.ite c t f, rest)
            else some (.ite c t [], .id e :: .punct q :: rest)
          | some (t, rest) => some (.ite c t [], rest)
        else none
      | _ => none
    else if x = c!"loop" then
      match ts with
      | .punct p :: ts => if p = c!"{" then (rBody n ts).map fun (ss, rest) => (.loop ss, rest) else none
      | _ => none
    else if x = c!"let" then rDecl n false ts
    else if x = c!"static" then rDecl n true ts
    else if x = c!"break" then rJump .brk ts
    else if x = c!"continue" then rJump .cont ts
    else if x = c!"return" then rJump .ret ts
    else rLeaf n (.id x :: ts) := by
  conv => lhs; unfold rStmt
  rfl

theorem rStmt_leaf {x : RTok} (h : LeafHead x) (hif : PlainHead [x]) (n : Nat) (ts : List RTok) : rStmt (n + 1) (x :: ts) = rLeaf n (x :: ts) := by
  cases x with
  | punct p =>
    obtain ⟨h1, h3⟩ := h.1 p rfl
    rw [rStmt_punct, if_neg h1, if_neg fun h => hif.2.1 (by rw [h]; rfl)]
  | id y =>
    have := h.2 y rfl
    have hk : ∀ k ∈ [c!"if", c!"loop", c!"let", c!"static", c!"break", c!"continue", c!"return"], y ≠ k := by
      rintro k hk rfl
      obtain ⟨h1, h2⟩ := (by decide : ∀ k ∈ [c!"if", c!"loop", c!"let", c!"static", c!"break", c!"continue", c!"return"], k ∈ rustKeywords ∧ k ∉ pathRoots) y hk
      exact (this h1).elim (fun h => hif.1 (by rw [h]; rfl)) h2
    rw [rStmt_id, if_neg (hk _ (by decide)), if_neg (hk _ (by decide)), if_neg (hk _ (by decide)), if_neg (hk _ (by decide)), if_neg (hk _ (by decide)),
      if_neg (hk _ (by decide)), if_neg (hk _ (by decide))]
  | _ => rw [rStmt] <;> simp

/-- An expression and a semicolon, or an expression at the end of a block. -/
theorem rStmt_expr {n : Nat} {ts rest rest' : List RTok} {t : RExpr} (h : rExpr n 14 (ts ++ rest) = some (t, rest)) (hne : ts ≠ [])
    (hif : PlainHead ts) (he : rEnd rest = some rest') : rStmt (n + 1) (ts ++ rest) = some (.leaf t, rest') := by
  obtain ⟨x, ts, rfl⟩ : ∃ x u, ts = x :: u := by cases ts with | nil => exact absurd rfl hne | cons x u => exact ⟨x, u, rfl⟩
  rw [List.cons_append] at h ⊢
  rw [rStmt_leaf (leafHead h) hif, rLeaf, h]
  simp [he]

/-! ## Sequences -/

/-- The tokens are these statements, whatever comes after them. -/
structure Rd (ts : List RTok) (rs : List RStmt) : Prop where
  len : rs.length ≤ ts.length
  noElse : ts.head? ≠ some (.id c!"else")
  read : ∀ n rest, rest.head? ≠ some (.id c!"else") → 2 * ts.length < n →
    rBody n (ts ++ rest) = (rBody (n - rs.length) rest).map fun (ss, r) => (rs ++ ss, r)

theorem Rd.nil : Rd [] [] := ⟨Nat.le_refl _, by simp, fun n rest _ _ => by
  simp only [List.nil_append, List.length_nil, Nat.sub_zero]
  cases rBody n rest with
  | none => rfl
  | some x => rfl⟩

theorem Rd.append {ts us : List RTok} {rs qs : List RStmt} (h : Rd ts rs) (h' : Rd us qs) : Rd (ts ++ us) (rs ++ qs) := by
  refine ⟨by have := h.len; have := h'.len; simp; omega, ?_, fun n rest hr hn => ?_⟩
  · cases ts with
    | nil => exact h'.noElse
    | cons t ts => exact h.noElse
  · have hl := h.len
    rw [List.length_append] at hn
    have hr' : (us ++ rest).head? ≠ some (.id c!"else") := by
      cases us with
      | nil => exact hr
      | cons t us => exact h'.noElse
    rw [List.append_assoc, h.read n (us ++ rest) hr' (by omega), h'.read (n - rs.length) rest hr (by omega)]
    rw [List.length_append, Nat.sub_sub]
    cases rBody (n - (rs.length + qs.length)) rest with
    | none => rfl
    | some x => simp

/-- One statement. -/
theorem Rd.one {ts : List RTok} {s : RStmt} (hne : ts ≠ []) (hc : ts.head? ≠ some (.punct c!"}")) (he : ts.head? ≠ some (.id c!"else"))
    (h : ∀ n rest, rest.head? ≠ some (.id c!"else") → 2 * ts.length ≤ n → rStmt n (ts ++ rest) = some (s, rest)) : Rd ts [s] := by
  have hl := List.length_pos_iff.2 hne
  refine ⟨by simp; omega, he, fun n rest hr hn => ?_⟩
  obtain ⟨n, rfl⟩ : ∃ m, n = m + 1 := ⟨n - 1, by omega⟩
  rw [rBody, if_neg, h n rest hr (by omega)]
  · rfl
  · cases ts with
    | nil => exact absurd rfl hne
    | cons t ts => exact hc

theorem leaf_head_ne {n k : Nat} {ts rest : List RTok} {y : RExpr × List RTok} (hne : ts ≠ []) (h : rExpr n k (ts ++ rest) = some y) :
    ts.head? ≠ some (.punct c!"}") ∧ ts.head? ≠ some (.id c!"else") := by
  cases ts with
  | nil => exact absurd rfl hne
  | cons t ts =>
    have hh := leafHead (x := t) (ts := ts ++ rest) h
    refine ⟨?_, ?_⟩
    · rintro e
      simp only [List.head?_cons, Option.some.injEq] at e
      exact (hh.1 _ e).2 rfl
    · rintro e
      simp only [List.head?_cons, Option.some.injEq] at e
      exact absurd (hh.2 _ e (by decide)) (by decide)

/-- An expression statement. -/
theorem Rd.leaf {ts : List RTok} {t : RExpr} (hne : ts ≠ []) (hif : PlainHead ts)
    (h : ∀ n rest, Ender rest → 2 * ts.length < n → rExpr n 14 (ts ++ rest) = some (t, rest)) : Rd (ts ++ [.punct c!";"]) [.leaf t] := by
  have h0 := leaf_head_ne hne (h _ [RTok.punct c!";"] ⟨_, _, rfl, by decide⟩ (Nat.lt_succ_self _))
  have hd : (ts ++ [RTok.punct c!";"]).head? = ts.head? := by cases ts with | nil => exact absurd rfl hne | cons => rfl
  refine .one (by simp) (hd ▸ h0.1) (hd ▸ h0.2) fun n rest _ hn => ?_
  simp at hn
  obtain ⟨n, rfl⟩ : ∃ m, n = m + 1 := ⟨n - 1, by omega⟩
  rw [List.append_assoc]
  exact rStmt_expr (h n _ ⟨_, _, rfl, by decide⟩ (by omega)) hne hif (by simp [rEnd])

/-- An expression at the end of a block. -/
theorem rBody_tail {ts : List RTok} {t : RExpr} (hne : ts ≠ []) (hif : PlainHead ts)
    (h : ∀ n rest, Ender rest → 2 * ts.length < n → rExpr n 14 (ts ++ rest) = some (t, rest)) (n : Nat) (rest : List RTok) (hn : 2 * ts.length + 2 < n) :
    rBody n (ts ++ .punct c!"}" :: rest) = some ([.leaf t], rest) := by
  obtain ⟨n, rfl⟩ : ∃ m, n = m + 3 := ⟨n - 3, by omega⟩
  have he := h (n + 1) (.punct c!"}" :: rest) ⟨_, _, rfl, by decide⟩ (by omega)
  have h0 := leaf_head_ne hne he
  rw [rBody, if_neg, rStmt_expr he hne hif (rest' := .punct c!"}" :: rest) (by simp [rEnd])]
  · simp [rBody]
  · cases ts with
    | nil => exact absurd rfl hne
    | cons => exact h0.1

theorem Rd.empty : Rd [.punct c!";"] [.empty] :=
  .one (by simp) (by decide) (by decide) fun n rest _ hn => by
    simp at hn
    obtain ⟨n, rfl⟩ : ∃ m, n = m + 1 := ⟨n - 1, by omega⟩
    simp [rStmt_punct]

/-- The statements of a block, up to the brace. -/
theorem Rd.body {ts : List RTok} {rs : List RStmt} (h : Rd ts rs) (n : Nat) (rest : List RTok) (hn : 2 * ts.length + 1 < n) :
    rBody n (ts ++ .punct c!"}" :: rest) = some (rs, rest) := by
  have := h.len
  rw [h.read n _ (by simp) (by omega)]
  obtain ⟨m, hm⟩ : ∃ m, n - rs.length = m + 1 := ⟨n - rs.length - 1, by omega⟩
  rw [hm, rBody]
  simp

theorem Rd.block {ts : List RTok} {rs : List RStmt} (h : Rd ts rs) : Rd (.punct c!"{" :: (ts ++ [.punct c!"}"])) [.block rs] :=
  .one (by simp) (by simp) (by simp) fun n rest _ hn => by
    simp at hn
    obtain ⟨n, rfl⟩ : ∃ m, n = m + 1 := ⟨n - 1, by omega⟩
    have : (RTok.punct c!"{" :: (ts ++ [.punct c!"}"]) ++ rest : List RTok) = .punct c!"{" :: (ts ++ .punct c!"}" :: rest) := by simp
    rw [this, rStmt_punct, if_neg (by decide), if_pos rfl, h.body n rest (by omega)]
    rfl

theorem Rd.loop {ts : List RTok} {rs : List RStmt} (h : Rd ts rs) : Rd (.id c!"loop" :: .punct c!"{" :: (ts ++ [.punct c!"}"])) [.loop rs] :=
  .one (by simp) (by simp) (by simp) fun n rest _ hn => by
    simp at hn
    obtain ⟨n, rfl⟩ : ∃ m, n = m + 1 := ⟨n - 1, by omega⟩
    have : (RTok.id c!"loop" :: .punct c!"{" :: (ts ++ [.punct c!"}"]) ++ rest : List RTok) = .id c!"loop" :: .punct c!"{" :: (ts ++ .punct c!"}" :: rest) := by simp
    rw [this, rStmt_id, if_neg (by decide), if_pos rfl]
    simp only [if_true, h.body n rest (by omega), Option.map_some]

theorem Rd.ite {cs ts : List RTok} {c : RExpr} {rs : List RStmt} (hc : ∀ n rest, Ender rest → 2 * cs.length < n → rExpr n 14 (cs ++ rest) = some (c, rest))
    (h : Rd ts rs) : Rd (.id c!"if" :: (cs ++ .punct c!"{" :: (ts ++ [.punct c!"}"]))) [.ite c rs []] :=
  .one (by simp) (by simp) (by simp) fun n rest hr hn => by
    simp at hn
    obtain ⟨n, rfl⟩ : ∃ m, n = m + 1 := ⟨n - 1, by omega⟩
    have : (RTok.id c!"if" :: (cs ++ .punct c!"{" :: (ts ++ [.punct c!"}"])) ++ rest : List RTok)
      = .id c!"if" :: (cs ++ .punct c!"{" :: (ts ++ .punct c!"}" :: rest)) := by simp
    rw [this, rStmt_id, if_pos rfl, hc n _ ⟨_, _, rfl, by decide⟩ (by omega)]
    simp only [if_true, h.body n rest (by omega)]
    split
    · rename_i heq; cases heq
    · rename_i t e q rest' heq
      cases heq
      rw [if_neg]
      rintro ⟨rfl, _⟩
      exact hr rfl
    · rename_i t rest' _ heq
      cases heq
      rfl

theorem Rd.iteElse {cs ts us : List RTok} {c : RExpr} {rs qs : List RStmt} (hc : ∀ n rest, Ender rest → 2 * cs.length < n → rExpr n 14 (cs ++ rest) = some (c, rest))
    (h : Rd ts rs) (h' : Rd us qs) :
    Rd (.id c!"if" :: (cs ++ .punct c!"{" :: (ts ++ .punct c!"}" :: .id c!"else" :: .punct c!"{" :: (us ++ [.punct c!"}"])))) [.ite c rs qs] :=
  .one (by simp) (by simp) (by simp) fun n rest hr hn => by
    simp at hn
    obtain ⟨n, rfl⟩ : ∃ m, n = m + 1 := ⟨n - 1, by omega⟩
    have : (RTok.id c!"if" :: (cs ++ .punct c!"{" :: (ts ++ .punct c!"}" :: .id c!"else" :: .punct c!"{" :: (us ++ [.punct c!"}"]))) ++ rest : List RTok)
      = .id c!"if" :: (cs ++ .punct c!"{" :: (ts ++ .punct c!"}" :: .id c!"else" :: .punct c!"{" :: (us ++ .punct c!"}" :: rest))) := by simp
    rw [this, rStmt_id, if_pos rfl, hc n _ ⟨_, _, rfl, by decide⟩ (by omega)]
    simp only [if_true, h.body n _ (by omega), and_self, h'.body n rest (by omega), Option.map_some]

theorem Rd.jump {x : Str} {s : RStmt} (h : (x, s) ∈ [(c!"break", RStmt.brk), (c!"continue", .cont), (c!"return", .ret)]) :
    Rd [.id x, .punct c!";"] [s] := by
  simp only [List.mem_cons, Prod.mk.injEq, List.not_mem_nil, or_false] at h
  rcases h with ⟨rfl, rfl⟩ | ⟨rfl, rfl⟩ | ⟨rfl, rfl⟩ <;>
  · refine .one (by simp) (by simp) (by simp) fun n rest _ hn => ?_
    simp at hn
    obtain ⟨n, rfl⟩ : ∃ m, n = m + 1 := ⟨n - 1, by omega⟩
    simp [rStmt_id, rJump, rEnd]

/-! ## Leaves -/

/-- Statements before an expression at the end of a block. -/
theorem Rd.blockTail {ts us : List RTok} {rs : List RStmt} {t : RExpr} (h : Rd ts rs) (hne : us ≠ []) (hif : PlainHead us)
    (hu : ∀ n rest, Ender rest → 2 * us.length < n → rExpr n 14 (us ++ rest) = some (t, rest)) :
    Rd (.punct c!"{" :: (ts ++ us ++ [.punct c!"}"])) [.block (rs ++ [.leaf t])] :=
  .one (by simp) (by simp) (by simp) fun n rest _ hn => by
    simp at hn
    have := h.len
    obtain ⟨n, rfl⟩ : ∃ m, n = m + 1 := ⟨n - 1, by omega⟩
    have hap : (RTok.punct c!"{" :: (ts ++ us ++ [.punct c!"}"]) ++ rest : List RTok) = .punct c!"{" :: (ts ++ (us ++ .punct c!"}" :: rest)) := by simp
    have h0 := leaf_head_ne hne (hu _ [RTok.punct c!";"] ⟨_, _, rfl, by decide⟩ (Nat.lt_succ_self _))
    rw [hap, rStmt_punct, if_neg (by decide), if_pos rfl, h.read n _ ?_ (by omega), rBody_tail hne hif hu _ _ (by omega)]
    · rfl
    · cases us with
      | nil => exact absurd rfl hne
      | cons u us => exact h0.2

theorem head_of {l : Expr} {t : RExpr} (hl : ReadsBack P l t) (hif : beginsBlock l = false) {ts : List RTok}
    (ht : PlainHead ts) : PlainHead (l.toks P ++ ts) :=
  head_paren hl hif false ts ht

/-- An assignment written as a block. -/
theorem Rd.assignBlock {l : Expr} {t u : RExpr} (hl : ReadsBack P l t) (hif : beginsBlock l = false) (hp : edge l ≤ 2) {o : Str} (ho : o ∈ blockOps.map Prod.snd) {ts : List RTok}
    (hts : ∀ n rest, Ender rest → 2 * ts.length < n → rExpr n 14 (ts ++ rest) = some (u, rest)) :
    Rd (.punct c!"{" :: ((l.toks P ++ .punct o :: ts) ++ [.punct c!";"] ++ l.toks P ++ [.punct c!"}"]) ++ [.punct c!";"])
      [.block [.leaf (.bin o t u), .leaf t], .empty] := by
  have hne := Spec.RustTree.toks_ne hl
  have h1 : Rd ((l.toks P ++ .punct o :: ts) ++ [.punct c!";"]) [.leaf (.bin o t u)] := by
    refine .leaf (by simp) (head_of hl hif (plainHead_punct ((by decide : ∀ o ∈ blockOps.map Prod.snd, o ≠ c!"{") o ho) _)) fun n rest hr hn => ?_
    simp at hn
    rw [List.append_assoc, List.cons_append]
    exact assign_whole hl hp ho (by omega) hr fun m hm => hts m rest hr hm
  exact (h1.blockTail hne (hl.head hif) fun n rest hr hn => hl.whole hn hr).append .empty

/-- The same for a postfix operator. -/
theorem Rd.postBlock {l : Expr} {t : RExpr} (hl : ReadsBack P l t) (hif : beginsBlock l = false) (hp : edge l ≤ 2) {o : Str} (ho : o ∈ blockOps.map Prod.snd) :
    Rd (.punct c!"{" :: (([.id c!"let", .id c!"prev", .punct c!"="] ++ l.toks P ++ [.punct c!";"])
        ++ ((l.toks P ++ .punct o :: [.int 1 []]) ++ [.punct c!";"]) ++ [.id c!"prev"] ++ [.punct c!"}"]) ++ [.punct c!";"])
      [.block [.bind c!"prev" t, .leaf (.bin o t (.num 1)), .leaf (.name [.id c!"prev"])], .empty] := by
  have h0 : Rd ([.id c!"let", .id c!"prev", .punct c!"="] ++ l.toks P ++ [.punct c!";"]) [.bind c!"prev" t] := by
    refine .one (by simp) (by simp) (by simp) fun n rest _ hn => ?_
    simp at hn
    obtain ⟨n, rfl⟩ : ∃ m, n = m + 1 := ⟨n - 1, by omega⟩
    have hap : ([.id c!"let", .id c!"prev", .punct c!"="] ++ l.toks P ++ [.punct c!";"] ++ rest : List RTok)
        = .id c!"let" :: .id c!"prev" :: .punct c!"=" :: (l.toks P ++ .punct c!";" :: rest) := by simp
    rw [hap, rStmt_id, if_neg (by decide), if_neg (by decide), if_pos rfl, rDecl, if_neg (by decide), if_neg (by decide)]
    simp only [if_true, hl.whole (n := n) (rest := .punct c!";" :: rest) (by omega) ⟨_, _, rfl, by decide⟩]
  have h1 : Rd ((l.toks P ++ .punct o :: [.int 1 []]) ++ [.punct c!";"]) [.leaf (.bin o t (.num 1))] := by
    refine .leaf (by simp) (head_of hl hif (plainHead_punct ((by decide : ∀ o ∈ blockOps.map Prod.snd, o ≠ c!"{") o ho) _)) fun n rest hr hn => ?_
    simp at hn
    rw [List.append_assoc, List.cons_append]
    exact assign_whole hl hp ho (by simp; omega) hr fun m hm => num_whole m rest hr (by simpa using hm)
  exact ((h0.append h1).blockTail (by simp) (plainHead_id (by decide) _) fun n rest hr hn => prev_whole n rest hr (by simpa using hn)).append .empty

/-- A declaration. -/
theorem Rd.declaration {e : Expr} {t : RExpr} (he : ReadsBack P e t) {ty : List RTok} (hty : TypeText ty) (s : Bool) {xs : List RTok}
    (hx : ∀ rest, rName (xs ++ .punct c!":" :: rest) = some (xs, .punct c!":" :: rest)) :
    Rd ((if s then [.id c!"static", .id c!"mut"] else [.id c!"let", .id c!"mut"]) ++ xs ++ [.punct c!":"] ++ ty ++ [.punct c!"="] ++ e.toks P ++ [.punct c!";"])
      [.decl s xs ty t] := by
  refine .one (by simp) (by cases s <;> simp) (by cases s <;> simp) fun n rest _ hn => ?_
  have hlen : 2 * (e.toks P).length + 4 < n := by cases s <;> simp at hn <;> omega
  obtain ⟨n, rfl⟩ : ∃ m, n = m + 1 := ⟨n - 1, by omega⟩
  have hap : ((if s then [RTok.id c!"static", .id c!"mut"] else [.id c!"let", .id c!"mut"]) ++ xs ++ [.punct c!":"] ++ ty ++ [.punct c!"="] ++ e.toks P
      ++ [.punct c!";"] ++ rest : List RTok) =
    (if s then .id c!"static" else .id c!"let") :: .id c!"mut" :: (xs ++ .punct c!":" :: (ty ++ .punct c!"=" :: (e.toks P ++ .punct c!";" :: rest))) := by
    cases s <;> simp
  have hd : rDecl n s (.id c!"mut" :: (xs ++ .punct c!":" :: (ty ++ .punct c!"=" :: (e.toks P ++ .punct c!";" :: rest)))) =
      some (.decl s xs ty t, rest) := by
    unfold rDecl
    simp only [if_true, hx, rTy_text (rest := .punct c!"=" :: (e.toks P ++ .punct c!";" :: rest)) (by simp [endsType]) hty,
      he.whole (n := n) (rest := .punct c!";" :: rest) (by omega) ⟨_, _, rfl, by decide⟩]
  rw [hap]
  cases s with
  | true =>
    simp only [if_true]
    rw [rStmt_id, if_neg (by decide), if_neg (by decide), if_neg (by decide), if_pos rfl, hd]
  | false =>
    simp only [Bool.false_eq_true, if_false]
    rw [rStmt_id, if_neg (by decide), if_neg (by decide), if_pos rfl, hd]

theorem leafText_rd {s : Stmt} {rs : List RStmt} (h : LeafText P s rs) : Rd (s.toks P) rs := by
  cases h with
  | @expr e t h hs hif =>
    have hb := rustTree_readsBack h hs
    rw [Stmt.toks]
    exact .leaf (Spec.RustTree.toks_ne hb) (hb.head hif) fun n rest hr hn => hb.whole hn hr
  | @assign l op o r t u ho hl h h' hs hs' =>
    have hb := rustTree_readsBack h hs
    have hb' := rustTree_readsBack h' hs'
    have := Rd.assignBlock hb (target_noIf hl) (target_prec hl).2 (o := o) (List.mem_map.2 ⟨_, ho, rfl⟩) (ts := r.toks P) fun n rest hr hn => hb'.whole hn hr
    have hbl : op.isBlockAssign = true ∧ op.text = o := by
      have : ∀ x ∈ blockOps, x.1.isBlockAssign = true ∧ x.1.text = x.2 := by decide
      exact this _ ho
    rw [Stmt.toks, Expr.toks, binaryToks, if_pos hbl.1, h.noVolatile, if_neg (by simp), hbl.2]
    simpa using this
  | @inc e t hl h hs =>
    have hb := rustTree_readsBack h hs
    have := Rd.assignBlock hb (target_noIf hl) (target_prec hl).2 (o := c!"+=") (by decide) (ts := [.int 1 []]) fun n rest hr hn => num_whole n rest hr (by simpa using hn)
    rw [Stmt.toks, Expr.toks, unaryToks]
    simp only [h.noVolatile]
    simpa using this
  | @dec e t hl h hs =>
    have hb := rustTree_readsBack h hs
    have := Rd.assignBlock hb (target_noIf hl) (target_prec hl).2 (o := c!"-=") (by decide) (ts := [.int 1 []]) fun n rest hr hn => num_whole n rest hr (by simpa using hn)
    rw [Stmt.toks, Expr.toks, unaryToks]
    simp only [h.noVolatile]
    simpa using this
  | @postInc e t hl h hs =>
    have hb := rustTree_readsBack h hs
    have := Rd.postBlock hb (target_noIf hl) (target_prec hl).2 (o := c!"+=") (by decide)
    rw [Stmt.toks, Expr.toks, unaryToks]
    simp only [h.noVolatile]
    simpa using this
  | @postDec e t hl h hs =>
    have hb := rustTree_readsBack h hs
    have := Rd.postBlock hb (target_noIf hl) (target_prec hl).2 (o := c!"-=") (by decide)
    rw [Stmt.toks, Expr.toks, unaryToks]
    simp only [h.noVolatile]
    simpa using this
  | @plain ty x e s t hty hx h hs =>
    have hb := rustTree_readsBack h hs
    have := Rd.declaration hb hty s (xs := [.id x]) fun rest => by simp [rName, hx]
    rw [Stmt.toks, VarDecl.toks]
    cases s <;> simpa [IdentExpr.toks] using this
  | @metavar ty i x e s t hty h1 h2 h3 h hs =>
    have hb := rustTree_readsBack h hs
    have := Rd.declaration hb hty s (xs := [.punct c!"$", .id x]) fun rest => by simp [rName]
    rw [Stmt.toks, VarDecl.toks]
    cases s <;> simpa [IdentExpr.toks, argToks, h1, h2, h3] using this

/-- The end of the loop that stands for `do … while`. -/
def loopEnd (t : RExpr) : List RStmt := [.ite t [.cont] [], .brk]

/-- The body of the loop, and the test at its end. -/
theorem loop_rd {ts cs : List RTok} {rs : List RStmt} {c : RExpr} (h : Rd ts rs)
    (hc : ∀ n rest, Ender rest → 2 * cs.length < n → rExpr n 14 (cs ++ rest) = some (c, rest)) :
    Rd (.id c!"loop" :: .punct c!"{" :: (ts ++ (.id c!"if" :: (cs ++ [.punct c!"{", .id c!"continue", .punct c!"}"])) ++ [.id c!"break", .punct c!"}"]))
      [.loop (rs ++ loopEnd c)] :=
  .one (by simp) (by simp) (by simp) fun n rest _ hn => by
    simp at hn
    obtain ⟨n, rfl⟩ : ∃ m, n = m + 1 := ⟨n - 1, by omega⟩
    have hl := h.len
    have hap : (RTok.id c!"loop" :: .punct c!"{" :: (ts ++ (.id c!"if" :: (cs ++ [.punct c!"{", .id c!"continue", .punct c!"}"]))
        ++ [.id c!"break", .punct c!"}"]) ++ rest : List RTok) =
      .id c!"loop" :: .punct c!"{" :: (ts ++ .id c!"if" :: (cs ++ .punct c!"{" :: .id c!"continue" :: .punct c!"}" :: .id c!"break" :: .punct c!"}" :: rest)) := by
      simp
    rw [hap, rStmt_id, if_neg (by decide), if_pos rfl]
    simp only [if_true]
    rw [h.read n _ (by simp) (by omega)]
    obtain ⟨m, hm⟩ : ∃ m, n - rs.length = m + 5 := ⟨n - rs.length - 5, by omega⟩
    have hcont : rBody (m + 3) (.id c!"continue" :: .punct c!"}" :: .id c!"break" :: .punct c!"}" :: rest) = some ([.cont], .id c!"break" :: .punct c!"}" :: rest) := by
      rw [rBody, if_neg (by simp), rStmt_id]
      simp [rJump, rEnd, rBody]
    have hif : rStmt (m + 4) (.id c!"if" :: (cs ++ .punct c!"{" :: .id c!"continue" :: .punct c!"}" :: .id c!"break" :: .punct c!"}" :: rest))
        = some (.ite c [.cont] [], .id c!"break" :: .punct c!"}" :: rest) := by
      rw [rStmt_id, if_pos rfl, hc (m + 3) _ ⟨_, _, rfl, by decide⟩ (by omega)]
      simp only [if_true, hcont]
      simp
    have hbrk : rBody (m + 4) (.id c!"break" :: .punct c!"}" :: rest) = some ([.brk], rest) := by
      rw [rBody, if_neg (by simp), rStmt_id]
      simp [rJump, rEnd, rBody]
    rw [hm, rBody, if_neg (by simp), hif]
    simp only [hbrk, Option.map_some, loopEnd]

/-! ## Runs -/

section
variable {σ : Type} {Mc : CMeaning σ} {Mr : RMeaning σ}

/-- The C statements and the Rust statements have the same runs. -/
def SameRuns (Mc : CMeaning σ) (Mr : RMeaning σ) (ss : List Stmt) (rs : List RStmt) : Prop :=
  ∀ a o b, CRuns Mc ss a o b ↔ RRuns Mr rs a o b

theorem cruns_one {s : Stmt} {a : σ} {o : Out} {b : σ} : CRuns Mc [s] a o b ↔ CRun Mc s a o b := by
  constructor
  · intro h
    cases h with
    | cons h h' => cases h'; exact h
    | stop h _ => exact h
  · intro h
    by_cases ho : o = .normal
    · subst ho; exact .cons h .nil
    · exact .stop h ho

theorem rruns_one {s : RStmt} {a : σ} {o : Out} {b : σ} : RRuns Mr [s] a o b ↔ RRun Mr s a o b := by
  constructor
  · intro h
    cases h with
    | cons h h' => cases h'; exact h
    | stop h _ => exact h
  · intro h
    by_cases ho : o = .normal
    · subst ho; exact .cons h .nil
    · exact .stop h ho

theorem rruns_append {rs qs : List RStmt} {a : σ} {o : Out} {b : σ} : RRuns Mr (rs ++ qs) a o b ↔
    (∃ d, RRuns Mr rs a .normal d ∧ RRuns Mr qs d o b) ∨ (o ≠ .normal ∧ RRuns Mr rs a o b) := by
  induction rs generalizing a with
  | nil =>
    constructor
    · intro h; exact .inl ⟨a, .nil, h⟩
    · rintro (⟨d, h, h'⟩ | ⟨ho, h⟩)
      · cases h; exact h'
      · cases h; exact absurd rfl ho
  | cons r rs ih =>
    constructor
    · intro h
      cases h with
      | cons h h' =>
        rcases ih.1 h' with ⟨d, h1, h2⟩ | ⟨ho, h1⟩
        · exact .inl ⟨d, .cons h h1, h2⟩
        · exact .inr ⟨ho, .cons h h1⟩
      | stop h ho => exact .inr ⟨ho, .stop h ho⟩
    · rintro (⟨d, h, h'⟩ | ⟨ho, h⟩)
      · cases h with
        | cons h h1 => exact .cons h (ih.2 (.inl ⟨d, h1, h'⟩))
        | stop h ho => exact absurd rfl ho
      · cases h with
        | cons h h1 => exact .cons h (ih.2 (.inr ⟨ho, h1⟩))
        | stop h ho => exact .stop h ho

theorem cruns_cons {s : Stmt} {ss : List Stmt} {a : σ} {o : Out} {b : σ} : CRuns Mc (s :: ss) a o b ↔
    (∃ d, CRun Mc s a .normal d ∧ CRuns Mc ss d o b) ∨ (o ≠ .normal ∧ CRun Mc s a o b) := by
  constructor
  · intro h
    cases h with
    | cons h h' => exact .inl ⟨_, h, h'⟩
    | stop h ho => exact .inr ⟨ho, h⟩
  · rintro (⟨d, h, h'⟩ | ⟨ho, h⟩)
    · exact .cons h h'
    · exact .stop h ho

theorem SameRuns.nil : SameRuns Mc Mr [] [] := fun a o b =>
  ⟨fun h => by cases h; exact .nil, fun h => by cases h; exact .nil⟩

theorem SameRuns.cons {s : Stmt} {ss : List Stmt} {rs qs : List RStmt} (h : SameRuns Mc Mr [s] rs) (h' : SameRuns Mc Mr ss qs) :
    SameRuns Mc Mr (s :: ss) (rs ++ qs) := by
  intro a o b
  rw [cruns_cons, rruns_append]
  simp only [← cruns_one, h a _ _, h' _ o b]

/-- An empty statement in between. -/
theorem SameRuns.empty {ss : List Stmt} {rs : List RStmt} (h : SameRuns Mc Mr ss rs) : SameRuns Mc Mr ss (.empty :: rs) := by
  intro a o b
  rw [h a o b]
  constructor
  · exact fun h => .cons .empty h
  · intro h
    cases h with
    | cons h h' => cases h; exact h'
    | stop h ho => cases h; exact absurd rfl ho

theorem SameRuns.block {ss : List Stmt} {rs : List RStmt} (h : SameRuns Mc Mr ss rs) : SameRuns Mc Mr [.block ss] [.block rs] := by
  intro a o b
  rw [cruns_one, rruns_one]
  constructor
  · intro hr
    cases hr with
    | leaf h _ => cases h
    | jump h => cases h
    | block hr => exact .block ((h _ _ _).1 hr)
  · intro hr
    cases hr with
    | block hr => exact .block ((h _ _ _).2 hr)

theorem SameRuns.ite {c : Expr} {t : RExpr} {ss us : List Stmt} {rs qs : List RStmt} (hc : ∀ a v b, Mr.cond t a v b ↔ Mc.cond c a v b)
    (h : SameRuns Mc Mr ss rs) (h' : SameRuns Mc Mr us qs) : SameRuns Mc Mr [.ite c ss us] [.ite t rs qs] := by
  intro a o b
  rw [cruns_one, rruns_one]
  constructor
  · intro hr
    cases hr with
    | leaf h _ => cases h
    | jump h => cases h
    | iteTrue h1 h2 => exact .iteTrue ((hc _ _ _).2 h1) ((h _ _ _).1 h2)
    | iteFalse h1 h2 => exact .iteFalse ((hc _ _ _).2 h1) ((h' _ _ _).1 h2)
  · intro hr
    cases hr with
    | iteTrue h1 h2 => exact .iteTrue ((hc _ _ _).1 h1) ((h _ _ _).2 h2)
    | iteFalse h1 h2 => exact .iteFalse ((hc _ _ _).1 h1) ((h' _ _ _).2 h2)

theorem loopEnd_runs {t : RExpr} {a : σ} {o : Out} {b : σ} : RRuns Mr (loopEnd t) a o b ↔
    (o = .cont ∧ Mr.cond t a true b) ∨ (o = .brk ∧ Mr.cond t a false b) := by
  constructor
  · intro h
    cases h with
    | cons h h' =>
      cases h with
      | iteTrue h1 h2 =>
        rw [rruns_one] at h2
        cases h2
      | iteFalse h1 h2 =>
        cases h2
        rw [rruns_one] at h'
        cases h'
        exact .inr ⟨rfl, h1⟩
    | stop h ho =>
      cases h with
      | iteTrue h1 h2 =>
        rw [rruns_one] at h2
        cases h2
        exact .inl ⟨rfl, h1⟩
      | iteFalse h1 h2 =>
        cases h2
        exact absurd rfl ho
  · rintro (⟨rfl, h⟩ | ⟨rfl, h⟩)
    · exact .stop (.iteTrue h (rruns_one.2 .cont)) (by decide)
    · exact .cons (.iteFalse h .nil) (rruns_one.2 .brk)

theorem SameRuns.loop {c : Expr} {t : RExpr} {ss : List Stmt} {rs : List RStmt} (hc : ∀ a v b, Mr.cond t a v b ↔ Mc.cond c a v b)
    (h : SameRuns Mc Mr ss rs) (hn : ∀ a b, ¬ CRuns Mc ss a .cont b) : SameRuns Mc Mr [.doWhile ss c] [.loop (rs ++ loopEnd t)] := by
  intro a o b
  rw [cruns_one, rruns_one]
  constructor
  · intro hr
    generalize hs : Stmt.doWhile ss c = s at hr
    refine CRun.rec (motive_1 := fun s a o b _ => s = .doWhile ss c → RRun Mr (.loop (rs ++ loopEnd t)) a o b) (motive_2 := fun _ _ _ _ _ => True)
      ?_ ?_ ?_ ?_ ?_ ?_ ?_ ?_ ?_ ?_ ?_ ?_ hr hs.symm
    · rintro s a b h _ rfl; cases h
    · rintro s o a h rfl; cases h
    · intro _ _ _ _ _ _ h; cases h
    · intro _ _ _ _ _ _ _ _ _ _ h; cases h
    · intro _ _ _ _ _ _ _ _ _ _ h; cases h
    · intro ss' c' a b h1 _ hs; cases hs
      exact .loopBreak (rruns_append.2 (.inr ⟨by decide, (h _ _ _).1 h1⟩))
    · intro ss' c' a b h1 _ hs; cases hs
      exact .loopReturn (rruns_append.2 (.inr ⟨by decide, (h _ _ _).1 h1⟩))
    · intro ss' c' a o b d h1 ho h2 _ hs; cases hs
      rcases ho with rfl | rfl
      · exact .loopBreak (rruns_append.2 (.inl ⟨b, (h _ _ _).1 h1, loopEnd_runs.2 (.inr ⟨rfl, (hc _ _ _).2 h2⟩)⟩))
      · exact absurd h1 (hn _ _)
    · intro ss' c' a o b d o' e h1 ho h2 _ _ ih hs; cases hs
      rcases ho with rfl | rfl
      · exact .loopAgain (rruns_append.2 (.inl ⟨b, (h _ _ _).1 h1, loopEnd_runs.2 (.inl ⟨rfl, (hc _ _ _).2 h2⟩)⟩)) (.inr rfl) (ih rfl)
      · exact absurd h1 (hn _ _)
    · intros; trivial
    · intros; trivial
    · intros; trivial
  · intro hr
    generalize hs : RStmt.loop (rs ++ loopEnd t) = s at hr
    have hne : ∀ o, o ≠ .cont → o ≠ .brk → ∀ a b, RRuns Mr (rs ++ loopEnd t) a o b → o ≠ .normal ∧ CRuns Mc ss a o b := by
      intro o h1 h2 a b hr
      rcases rruns_append.1 hr with ⟨d, h3, h4⟩ | ⟨h3, h4⟩
      · rcases loopEnd_runs.1 h4 with ⟨rfl, _⟩ | ⟨rfl, _⟩
        · exact absurd rfl h1
        · exact absurd rfl h2
      · exact ⟨h3, (h _ _ _).2 h4⟩
    refine RRun.rec (motive_1 := fun s a o b _ => s = .loop (rs ++ loopEnd t) → CRun Mc (.doWhile ss c) a o b) (motive_2 := fun _ _ _ _ _ => True)
      ?_ ?_ ?_ ?_ ?_ ?_ ?_ ?_ ?_ ?_ ?_ ?_ ?_ ?_ ?_ ?_ hr hs.symm
    · intro _ h; cases h
    · intro _ _ _ _ h; cases h
    · intro _ _ _ _ _ _ _ h; cases h
    · intro _ _ _ _ _ h; cases h
    · intro _ _ _ _ _ _ h; cases h
    · intro _ _ _ _ _ _ _ _ _ _ h; cases h
    · intro _ _ _ _ _ _ _ _ _ _ h; cases h
    · intro rs' a b h1 _ hs; cases hs
      rcases rruns_append.1 h1 with ⟨d, h3, h4⟩ | ⟨h3, h4⟩
      · rcases loopEnd_runs.1 h4 with ⟨h5, _⟩ | ⟨_, h5⟩
        · cases h5
        · exact .doEnd ((h _ _ _).2 h3) (.inl rfl) ((hc _ _ _).1 h5)
      · exact .doBreak ((h _ _ _).2 h4)
    · intro rs' a b h1 _ hs; cases hs
      exact .doReturn (hne _ (by decide) (by decide) _ _ h1).2
    · intro rs' a o b o' d h1 ho _ _ ih hs; cases hs
      rcases ho with rfl | rfl
      · exact absurd rfl (hne _ (by decide) (by decide) _ _ h1).1
      · rcases rruns_append.1 h1 with ⟨e, h3, h4⟩ | ⟨h3, h4⟩
        · rcases loopEnd_runs.1 h4 with ⟨_, h5⟩ | ⟨h5, _⟩
          · exact .doAgain ((h _ _ _).2 h3) (.inl rfl) ((hc _ _ _).1 h5) (ih rfl)
          · cases h5
        · exact absurd ((h _ _ _).2 h4) (hn _ _)
    · intro _ h; cases h
    · intro _ h; cases h
    · intro _ h; cases h
    · intros; trivial
    · intros; trivial
    · intros; trivial

end

end CMacro
