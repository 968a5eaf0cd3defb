import Verif.Spec.RustSyntax

/-!
# Printed expressions read back

The lemmas behind C37.
-/

namespace CMacro
open Spec

/-! ## What may follow -/

/-- The tokens do not continue an expression with an operator on level `j` or tighter. -/
def Follow (j : Nat) : List RTok → Prop
  | .punct p :: _ => p ∉ [c!".", c!"(", c!"::", c!"!"] ∧ ∀ i, opLevel p = some i → j < i
  | .id x :: _ => x = c!"as" → j < 3
  | _ => True

/-- The tokens do not begin with `<` or `<<`. -/
def NoLess : List RTok → Prop
  | .punct p :: _ => p ≠ c!"<" ∧ p ≠ c!"<<"
  | _ => True

theorem Follow.le {i j : Nat} (h : i ≤ j) : ∀ {ts : List RTok}, Follow j ts → Follow i ts
  | [], _ => trivial
  | .punct _ :: _, hf => ⟨hf.1, fun x hx => by have := hf.2 x hx; omega⟩
  | .id _ :: _, hf => fun hx => by have := hf hx; omega
  | .int _ _ :: _, _ | .float _ :: _, _ | .char _ :: _, _ | .bytes _ :: _, _ | .str _ :: _, _
  | .opaque _ :: _, _ | .bad :: _, _ => trivial

theorem opLevel_ge {p : Str} {i : Nat} (h : opLevel p = some i) : 5 ≤ i := by
  unfold opLevel at h
  cases hx : rustRows.findIdx? (·.contains p) with
  | none => rw [hx] at h; cases h
  | some j => rw [hx] at h; simp at h; omega

theorem Follow.two {j : Nat} : ∀ {ts : List RTok}, Follow j ts → Follow 2 ts
  | [], _ => trivial
  | .punct _ :: _, hf => ⟨hf.1, fun x hx => by have := opLevel_ge hx; omega⟩
  | .id _ :: _, hf => fun _ => by omega
  | .int _ _ :: _, _ | .float _ :: _, _ | .char _ :: _, _ | .bytes _ :: _, _ | .str _ :: _, _
  | .opaque _ :: _, _ | .bad :: _, _ => trivial

/-- The tokens do not begin with `(` or `::`. -/
def NoTail (ts : List RTok) : Prop := ts.head? ≠ some (.punct c!"(") ∧ ts.head? ≠ some (.punct c!"::")

theorem Follow.noTail {j : Nat} : ∀ {ts : List RTok}, Follow j ts → NoTail ts
  | [], _ => ⟨by rintro ⟨⟩, by rintro ⟨⟩⟩
  | .punct p :: _, hf => by
    constructor <;> intro h <;> simp only [List.head?_cons, Option.some.injEq, RTok.punct.injEq] at h <;>
      (subst h; exact hf.1 (by decide))
  | .id _ :: _, _ => ⟨by rintro ⟨⟩, by rintro ⟨⟩⟩
  | .int _ _ :: _, _ | .float _ :: _, _ | .char _ :: _, _ | .bytes _ :: _, _ | .str _ :: _, _
  | .opaque _ :: _, _ | .bad :: _, _ => ⟨by rintro ⟨⟩, by rintro ⟨⟩⟩

theorem endsType_of : ∀ {ts : List RTok} {j : Nat}, Follow j ts → NoLess ts → endsType ts = true
  | [], _, _, _ => rfl
  | .punct p :: _, _, hf, hn => by
    have h1 := hf.1
    simp only [List.mem_cons, List.not_mem_nil, or_false, not_or] at h1
    simp only [endsType, List.mem_cons, List.not_mem_nil, or_false, Bool.not_eq_true', decide_eq_false_iff_not, not_or]
    exact ⟨hn.1, hn.2, h1.2.1, h1.2.2.1, h1.2.2.2⟩
  | .id _ :: _, _, _, _ => rfl
  | .int _ _ :: _, _, _, _ | .float _ :: _, _, _, _ | .char _ :: _, _, _, _ | .bytes _ :: _, _, _, _ | .str _ :: _, _, _, _
  | .opaque _ :: _, _, _, _ | .bad :: _, _, _, _ => rfl

theorem follow_close (j : Nat) (ts : List RTok) : Follow j (.punct c!")" :: ts) :=
  ⟨by decide, fun i h => by revert h; rw [show opLevel c!")" = none by decide]; intro h; cases h⟩

theorem follow_open (j : Nat) (ts : List RTok) : Follow j (.punct c!"{" :: ts) :=
  ⟨by decide, fun i h => by revert h; rw [show opLevel c!"{" = none by decide]; intro h; cases h⟩

theorem follow_end (j : Nat) (ts : List RTok) : Follow j (.punct c!"}" :: ts) :=
  ⟨by decide, fun i h => by revert h; rw [show opLevel c!"}" = none by decide]; intro h; cases h⟩

theorem follow_comma (j : Nat) (ts : List RTok) : Follow j (.punct c!"," :: ts) :=
  ⟨by decide, fun i h => by revert h; rw [show opLevel c!"," = none by decide]; intro h; cases h⟩

/-! ## The parts of the parser -/

theorem rPost_stop (n : Nat) (e : RExpr) : ∀ {ts : List RTok} {j : Nat}, Follow j ts → rPost (n + 1) e ts = some (e, ts)
  | [], _, _ => by simp [rPost]
  | .punct p :: _, _, hf => by
    have h1 := hf.1
    simp only [List.mem_cons, List.not_mem_nil, or_false, not_or] at h1
    simp [rPost, h1.1, h1.2.1, h1.2.2.1]
  | .id _ :: _, _, _ => by simp [rPost]
  | .int _ _ :: _, _, _ | .float _ :: _, _, _ | .char _ :: _, _, _ | .bytes _ :: _, _, _ | .str _ :: _, _, _
  | .opaque _ :: _, _, _ | .bad :: _, _, _ => by simp [rPost]

theorem rClimb_stop (n k : Nat) (e : RExpr) : ∀ {ts : List RTok}, Follow k ts → rClimb (n + 1) k e ts = some (e, ts)
  | [], _ => by simp [rClimb]
  | .punct p :: _, hf => by
    rw [rClimb]
    split
    · rfl
    · rename_i j hj
      rw [if_pos (hf.2 j hj)]
  | .id x :: _, hf => by
    rw [rClimb, if_neg]
    intro ⟨h1, h2⟩
    have := hf h1
    omega
  | .int _ _ :: _, _ | .float _ :: _, _ | .char _ :: _, _ | .bytes _ :: _, _ | .str _ :: _, _
  | .opaque _ :: _, _ | .bad :: _, _ => by simp [rClimb]

theorem rPath_text {rest : List RTok} (hr : endsType rest = true) : ∀ {ts : List RTok}, TypeText ts → (∃ x us, ts = .id x :: us) →
    rPath (ts ++ rest) = some (ts, rest) := by
  intro ts ht
  induction ht with
  | @name x =>
    intro _
    cases rest with
    | nil => rfl
    | cons t rest =>
      cases t with
      | punct p =>
        have hp : p ≠ c!"::" := by
          intro hp; subst hp; simp [endsType] at hr
        simp only [List.cons_append, List.nil_append, rPath, if_neg hp, if_pos hr]
      | _ => rfl
  | seg _ ih =>
    intro _
    have := ih ⟨_, _, rfl⟩
    simp only [List.cons_append] at this ⊢
    rw [rPath]
    simp [this]
  | root _ _ => rintro ⟨_, _, h⟩; cases h
  | ptr _ _ _ => rintro ⟨_, _, h⟩; cases h

theorem rTy_text {rest : List RTok} (hr : endsType rest = true) {ts : List RTok} (ht : TypeText ts) :
    rTy (ts ++ rest) = some (ts, rest) := by
  induction ht with
  | name => exact rPath_text hr .name ⟨_, _, rfl⟩
  | seg h _ => exact rPath_text hr (.seg h) ⟨_, _, rfl⟩
  | root h _ =>
    have := rPath_text hr h ⟨_, _, rfl⟩
    simp only [List.cons_append] at this ⊢
    rw [rTy, if_neg (by simp), if_pos rfl, this]
    rfl
  | ptr hm _ ih =>
    simp only [List.cons_append]
    rw [rTy, if_pos ⟨rfl, hm⟩, ih]
    rfl

theorem rExpr_close (n k : Nat) (ts : List RTok) : rExpr n k (.punct c!")" :: ts) = none := by
  cases n with
  | zero => rw [rExpr]
  | succ n =>
    rw [rExpr]
    cases n with
    | zero => rw [rPre]
    | succ n => simp [rPre]

theorem rPre_paren (n : Nat) (ts : List RTok) : rPre (n + 1) (.punct c!"(" :: ts) = match rExpr n 14 ts with
    | some (e, .punct q :: rest) => if q = c!")" then rPost n e rest else none
    | _ => none := by
  unfold rPre
  rw [if_neg (by decide), if_pos rfl]
  rfl

theorem rPre_if (n : Nat) (ts : List RTok) : rPre (n + 1) (.id c!"if" :: ts) = match rIf n ts with
    | none => none
    | some (e, rest) => rPost n e rest := by
  unfold rPre
  rw [if_pos rfl]
  rfl

theorem rPre_block (n : Nat) (ts : List RTok) : rPre (n + 1) (.punct c!"{" :: ts) = match rBlock n ts with
    | none => none
    | some (e, rest) => rPost n e rest := by
  unfold rPre
  rw [if_neg (by decide), if_neg (by decide), if_neg (by decide), if_neg (by decide), if_pos rfl]
  rfl

theorem rPre_op {p : Str} (h : p = c!"-" ∨ p = c!"!" ∨ p = c!"*") (n : Nat) (ts : List RTok) :
    rPre (n + 1) (.punct p :: ts) = match rPre n ts with
    | none => none
    | some (e, rest) => some (.un p e, rest) := by
  conv => lhs; unfold rPre
  simp only [h, if_true]
  rfl

/-! ## Expressions -/

/-- How far an expression reaches to the right. -/
def edge : Expr → Nat
  | .bin _ op _ => if op.prec.1 = 11 ∨ op.prec.1 = 14 then op.prec.1 else op.prec.1 - 1
  | _ => 2

theorem edge_le (e : Expr) : edge e ≤ max e.prec 2 := by
  unfold edge
  split
  · simp only [Expr.prec]; split <;> omega
  · omega

theorem prec_le (e : Expr) : e.prec ≤ 14 := by
  cases e with
  | un op _ => cases op <;> simp [Expr.prec, UnOp.prec, BinOp.prec]
  | bin _ op _ => cases op <;> simp [Expr.prec, UnOp.prec, BinOp.prec]
  | _ => simp [Expr.prec]

/-- The tokens do not begin with something that is a statement of its own. -/
def PlainHead (ts : List RTok) : Prop :=
  ts.head? ≠ some (.id c!"if") ∧ ts.head? ≠ some (.punct c!"{") ∧ ts.head? ≠ some (.id c!"let")

/-- Reading at the beginning of a statement: an `if` or a block ends with its last brace. -/
def rHead (n : Nat) (ts : List RTok) : Option (RExpr × List RTok) :=
  if ts.head? = some (.id c!"if") then rIf n ts.tail else if ts.head? = some (.punct c!"{") then rBlock n ts.tail
    else rExpr n 14 ts

/-- What is shown about a printed expression: what reading it amounts to. -/
structure ReadsBack (P : PCtx) (e : Expr) (t : RExpr) : Prop where
  post : e.prec ≤ 1 → negLit e = false → ∀ n rest, 2 * (e.toks P).length ≤ n → NoTail rest →
    ∃ n', n < n' + 2 * (e.toks P).length ∧ rPre n (e.toks P ++ rest) = rPost n' t rest
  pre : e.prec ≤ 2 → ∀ n rest, 2 * (e.toks P).length ≤ n → Follow 2 rest →
    rPre n (e.toks P ++ rest) = some (t, rest)
  main : ∀ k n rest, e.prec ≤ k → 2 * (e.toks P).length < n → Follow (edge e) rest →
    (endsCast e = true → NoLess rest) →
    ∃ n', n ≤ n' + 2 * (e.toks P).length ∧ rExpr n k (e.toks P ++ rest) = rClimb n' k t rest
  head : beginsBlock e = false → PlainHead (e.toks P)
  own : isBlockLike e = true → ∀ n rest, 2 * (e.toks P).length ≤ n + 2 →
    (e.toks P).head? ≠ some (.id c!"let") ∧ rHead n (e.toks P ++ rest) = some (t, rest)

variable {P : PCtx}

theorem ReadsBack.of_pre {e : Expr} {t : RExpr} (hne : e.toks P ≠ [])
    (hhead : beginsBlock e = false → PlainHead (e.toks P)) (hif : isBlockLike e = false)
    (hpost : e.prec ≤ 1 → negLit e = false → ∀ n rest, 2 * (e.toks P).length ≤ n → NoTail rest →
      ∃ n', n < n' + 2 * (e.toks P).length ∧ rPre n (e.toks P ++ rest) = rPost n' t rest)
    (hpre : ∀ n rest, 2 * (e.toks P).length ≤ n → Follow 2 rest →
      rPre n (e.toks P ++ rest) = some (t, rest)) : ReadsBack P e t where
  post := hpost
  pre := fun _ n rest hn hf => hpre n rest hn hf
  main := by
    intro k n rest _ hn hf _
    have hl : 0 < (e.toks P).length := List.length_pos_iff.2 hne
    obtain ⟨m, rfl⟩ : ∃ m, n = m + 1 := ⟨n - 1, by omega⟩
    refine ⟨m, by omega, ?_⟩
    rw [rExpr, hpre m rest (by omega) hf.two]
  head := hhead
  own := fun h => by rw [hif] at h; cases h

theorem ReadsBack.of_post {e : Expr} {t : RExpr} (hne : e.toks P ≠ [])
    (hhead : beginsBlock e = false → PlainHead (e.toks P)) (hif : isBlockLike e = false)
    (hpost : ∀ n rest, 2 * (e.toks P).length ≤ n → NoTail rest →
      ∃ n', n < n' + 2 * (e.toks P).length ∧ rPre n (e.toks P ++ rest) = rPost n' t rest) : ReadsBack P e t :=
  .of_pre hne hhead hif (fun _ _ => hpost) fun n rest hn hf => by
    obtain ⟨n', h1, h2⟩ := hpost n rest hn hf.noTail
    obtain ⟨m, rfl⟩ : ∃ m, n' = m + 1 := ⟨n' - 1, by omega⟩
    rw [h2, rPost_stop m t hf]

/-- An expression in parentheses. -/
theorem ReadsBack.paren {e : Expr} {t : RExpr} (h : ReadsBack P e t) (n : Nat) (rest : List RTok)
    (hn : 2 * (e.toks P).length + 4 ≤ n) :
    ∃ n', n ≤ n' + 1 ∧ rPre n (parenToks (e.toks P) ++ rest) = rPost n' t rest := by
  obtain ⟨m, rfl⟩ : ∃ m, n = m + 1 := ⟨n - 1, by omega⟩
  obtain ⟨n', h1, h2⟩ := h.main 14 m (.punct c!")" :: rest) (prec_le e) (by omega) (follow_close _ _)
    (fun _ => ⟨by decide, by decide⟩)
  obtain ⟨j, rfl⟩ : ∃ j, n' = j + 1 := ⟨n' - 1, by omega⟩
  rw [rClimb_stop j 14 t (follow_close _ _)] at h2
  refine ⟨m, Nat.le_refl _, ?_⟩
  simp only [parenToks, List.append_assoc, List.cons_append, List.nil_append]
  rw [rPre_paren, h2]
  simp

theorem parenToks_length (x : List RTok) : (parenToks x).length = x.length + 2 := by
  simp [parenToks]

/-- An operand of `.`. -/
theorem ReadsBack.operandPost {e : Expr} {t : RExpr} (h : ReadsBack P e t) (hn : negLit e = false) (n : Nat) (rest : List RTok)
    (hl : 2 * (parenIf (decide (e.prec > 1)) (e.toks P)).length ≤ n) (hr : NoTail rest) :
    ∃ n', n < n' + 2 * (parenIf (decide (e.prec > 1)) (e.toks P)).length ∧
      rPre n (parenIf (decide (e.prec > 1)) (e.toks P) ++ rest) = rPost n' t rest := by
  by_cases hp : e.prec > 1
  · simp only [hp, decide_true, parenIf, if_true, parenToks_length] at hl ⊢
    obtain ⟨n', h1, h2⟩ := h.paren n rest (by omega)
    exact ⟨n', by omega, h2⟩
  · simp only [hp, decide_false, parenIf, Bool.false_eq_true, if_false] at hl ⊢
    exact h.post (by omega) hn n rest hl hr

/-- An operand of a prefix operator. -/
theorem ReadsBack.operandPre {e : Expr} {t : RExpr} (h : ReadsBack P e t) (n : Nat) (rest : List RTok)
    (hl : 2 * (parenIf (decide (e.prec > 2)) (e.toks P)).length ≤ n) (hf : Follow 2 rest) :
    rPre n (parenIf (decide (e.prec > 2)) (e.toks P) ++ rest) = some (t, rest) := by
  by_cases hp : e.prec > 2
  · simp only [hp, decide_true, parenIf, if_true, parenToks_length] at hl ⊢
    obtain ⟨n', h1, h2⟩ := h.paren n rest (by omega)
    obtain ⟨m, rfl⟩ : ∃ m, n' = m + 1 := ⟨n' - 1, by omega⟩
    rw [h2, rPost_stop m t hf]
  · simp only [hp, decide_false, parenIf, Bool.false_eq_true, if_false] at hl ⊢
    exact h.pre (by omega) n rest hl hf

/-- An operand of a binary operator. -/
theorem ReadsBack.operand {e : Expr} {t : RExpr} (h : ReadsBack P e t) (b : Bool) (k n : Nat) (rest : List RTok)
    (hk : b = false → e.prec ≤ k) (hl : 2 * (parenIf b (e.toks P)).length < n) (hf2 : Follow 2 rest)
    (hf : b = false → Follow (edge e) rest) (hc : b = false → endsCast e = true → NoLess rest) :
    ∃ n', n ≤ n' + 2 * (parenIf b (e.toks P)).length ∧ rExpr n k (parenIf b (e.toks P) ++ rest) = rClimb n' k t rest := by
  cases b with
  | true =>
    simp only [parenIf, if_true, parenToks_length] at hl ⊢
    obtain ⟨m, rfl⟩ : ∃ m, n = m + 1 := ⟨n - 1, by omega⟩
    obtain ⟨n', h1, h2⟩ := h.paren m rest (by omega)
    obtain ⟨j, rfl⟩ : ∃ j, n' = j + 1 := ⟨n' - 1, by omega⟩
    refine ⟨m, by omega, ?_⟩
    rw [rExpr, h2, rPost_stop j t hf2]
  | false =>
    simp only [parenIf, Bool.false_eq_true, if_false] at hl ⊢
    exact h.main k n rest (hk rfl) hl (hf rfl) (hc rfl)

/-- The expression as the only argument of a method. -/
theorem ReadsBack.arg {e : Expr} {t : RExpr} (h : ReadsBack P e t) (n : Nat) (rest : List RTok)
    (hn : 2 * (e.toks P).length + 2 ≤ n) :
    rArgs n (e.toks P ++ .punct c!")" :: rest) = some ([t], rest) := by
  obtain ⟨m, rfl⟩ : ∃ m, n = m + 1 := ⟨n - 1, by omega⟩
  obtain ⟨n', h1, h2⟩ := h.main 14 m (.punct c!")" :: rest) (prec_le e) (by omega) (follow_close _ _)
    (fun _ => ⟨by decide, by decide⟩)
  obtain ⟨j, rfl⟩ : ∃ j, n' = j + 1 := ⟨n' - 1, by omega⟩
  rw [rClimb_stop j 14 t (follow_close _ _)] at h2
  rw [rArgs, if_neg, h2]
  · simp
  · intro hh
    cases hx : e.toks P ++ RTok.punct c!")" :: rest with
    | nil => simp at hx
    | cons x xs =>
      rw [hx] at hh h2
      simp only [List.head?_cons, Option.some.injEq] at hh
      rw [hh, rExpr_close] at h2
      cases h2

theorem rBlock_of {n : Nat} {ts rest : List RTok} {t : RExpr} (hl : ts.head? ≠ some (.id c!"let"))
    (h : rHead n ts = some (t, .punct c!"}" :: rest)) : rBlock (n + 1) ts = some (t, rest) := by
  unfold rHead at h
  rw [rBlock, if_neg hl, h]
  simp

theorem rBlock_seq {n : Nat} {ts us rest : List RTok} {t u : RExpr} (hl : ts.head? ≠ some (.id c!"let"))
    (h : rHead n ts = some (t, .punct c!";" :: us)) (hu : rBlock n us = some (u, rest)) : rBlock (n + 1) ts = some (.seq t u, rest) := by
  unfold rHead at h
  rw [rBlock, if_neg hl, h]
  simp only [show ¬ (c!";" = c!"}") by decide, if_false, if_true, hu]

theorem rBlock_let {n : Nat} {x : Str} {ts us rest : List RTok} {t u : RExpr} (hx : x ∉ rustKeywords)
    (h : rExpr n 14 ts = some (t, .punct c!";" :: us)) (hu : rBlock n us = some (u, rest)) :
    rBlock (n + 1) (.id c!"let" :: .id x :: .punct c!"=" :: ts) = some (.letIn x t u, rest) := by
  rw [rBlock, if_pos (by rfl)]
  simp only [List.tail_cons, hx, not_false_eq_true, and_self, if_true, h, hu]

theorem rHead_plain {n : Nat} {ts : List RTok} (h : PlainHead ts) : rHead n ts = rExpr n 14 ts := by
  unfold rHead
  rw [if_neg h.1, if_neg h.2.1]

theorem PlainHead.append {ts us : List RTok} (h : PlainHead ts) (hu : PlainHead us) : PlainHead (ts ++ us) := by
  cases ts with
  | nil => exact hu
  | cons a as => exact h

theorem append_head {ts us : List RTok} {x : RTok} (h : ts.head? ≠ some x) (hu : us.head? ≠ some x) : (ts ++ us).head? ≠ some x := by
  cases ts with
  | nil => exact hu
  | cons a as => exact h

theorem plainHead_punct {p : Str} (h : p ≠ c!"{") (ts : List RTok) : PlainHead (.punct p :: ts) :=
  ⟨by rintro ⟨⟩, by simpa using h, by rintro ⟨⟩⟩

/-- The expression between braces. -/
theorem ReadsBack.block {e : Expr} {t : RExpr} (h : ReadsBack P e t) (hb : FitsBlock e) (n : Nat) (rest : List RTok)
    (hn : 2 * (e.toks P).length + 2 ≤ n) : rBlock n (e.toks P ++ .punct c!"}" :: rest) = some (t, rest) := by
  obtain ⟨m, rfl⟩ : ∃ m, n = m + 1 := ⟨n - 1, by omega⟩
  by_cases hi : isBlockLike e = true
  · obtain ⟨h1, h2⟩ := h.own hi m (.punct c!"}" :: rest) (by omega)
    exact rBlock_of (append_head h1 (by rintro ⟨⟩)) h2
  · have hh := (h.head (hb.resolve_left hi)).append (plainHead_punct (p := c!"}") (by decide) rest)
    refine rBlock_of hh.2.2 ?_
    rw [rHead_plain hh]
    obtain ⟨n', h1, h2⟩ := h.main 14 m (.punct c!"}" :: rest) (prec_le e) (by omega) (follow_end _ _)
      (fun _ => ⟨by decide, by decide⟩)
    obtain ⟨j, rfl⟩ : ∃ j, n' = j + 1 := ⟨n' - 1, by omega⟩
    rw [h2, rClimb_stop j 14 t (follow_end _ _)]

theorem head_paren {e : Expr} {t : RExpr} (h : ReadsBack P e t) (hb : beginsBlock e = false) (b : Bool) (ts : List RTok)
    (ht : PlainHead ts) : PlainHead (parenIf b (e.toks P) ++ ts) := by
  cases b with
  | true => exact plainHead_punct (by decide) _
  | false => exact (h.head hb).append ht

/-! ## The forms of expressions -/

/-- A conditional expression. -/
theorem reads_ternary {c x y : Expr} {a b d : RExpr} (hc : ReadsBack P c a) (hx : ReadsBack P x b) (hy : ReadsBack P y d)
    (bx : FitsBlock x) (by' : FitsBlock y) : ReadsBack P (.ternary c x y) (.ite a b d) := by
  have ht : (Expr.ternary c x y).toks P = .id c!"if" :: (c.toks P ++ .punct c!"{" :: (x.toks P ++ .punct c!"}" :: .id c!"else" ::
      .punct c!"{" :: (y.toks P ++ [.punct c!"}"]))) := by
    simp [Expr.toks]
  have hif : ∀ n rest, 2 * ((Expr.ternary c x y).toks P).length ≤ n + 2 →
      rIf n ((c.toks P ++ .punct c!"{" :: (x.toks P ++ .punct c!"}" :: .id c!"else" ::
        .punct c!"{" :: (y.toks P ++ [.punct c!"}"]))) ++ rest) = some (.ite a b d, rest) := by
    intro n rest hn
    rw [ht] at hn
    simp only [List.length_cons, List.length_append, List.length_nil] at hn
    obtain ⟨m, rfl⟩ : ∃ m, n = m + 1 := ⟨n - 1, by omega⟩
    simp only [List.append_assoc, List.cons_append, List.nil_append]
    obtain ⟨n', h1, h2⟩ := hc.main 14 m (.punct c!"{" :: (x.toks P ++ .punct c!"}" :: .id c!"else" ::
      .punct c!"{" :: (y.toks P ++ .punct c!"}" :: rest))) (prec_le c) (by omega) (follow_open _ _) (fun _ => ⟨by decide, by decide⟩)
    obtain ⟨j, rfl⟩ : ∃ j, n' = j + 1 := ⟨n' - 1, by omega⟩
    rw [rClimb_stop j 14 a (follow_open _ _)] at h2
    rw [rIf, h2]
    simp only [if_true]
    rw [hx.block bx m _ (by omega)]
    simp only [and_self, if_true]
    rw [hy.block by' m _ (by omega)]
  have post : ∀ n rest, 2 * ((Expr.ternary c x y).toks P).length ≤ n →
      ∃ n', n < n' + 2 * ((Expr.ternary c x y).toks P).length ∧ rPre n ((Expr.ternary c x y).toks P ++ rest) = rPost n' (.ite a b d) rest := by
    intro n rest hn
    have hl : 0 < ((Expr.ternary c x y).toks P).length := by rw [ht]; simp
    obtain ⟨m, rfl⟩ : ∃ m, n = m + 1 := ⟨n - 1, by omega⟩
    refine ⟨m, by omega, ?_⟩
    have := hif m rest (by omega)
    rw [ht, List.cons_append, rPre_if, this]
  have hpre : ∀ n rest, 2 * ((Expr.ternary c x y).toks P).length ≤ n → Follow 2 rest →
      rPre n ((Expr.ternary c x y).toks P ++ rest) = some (.ite a b d, rest) := by
    intro n rest hn hf
    obtain ⟨n', h1, h2⟩ := post n rest hn
    obtain ⟨m, rfl⟩ : ∃ m, n' = m + 1 := ⟨n' - 1, by omega⟩
    rw [h2, rPost_stop m _ hf]
  refine ⟨fun _ _ n rest hn _ => post n rest hn, fun _ => hpre, ?_, fun h => (by cases h), fun _ n rest hn => ?_⟩
  rotate_left
  · rw [ht]
    refine ⟨by simp, ?_⟩
    rw [List.cons_append, rHead, List.head?_cons, if_pos rfl, List.tail_cons]
    exact hif n rest hn
  intro k n rest _ hn hf _
  obtain ⟨m, rfl⟩ : ∃ m, n = m + 1 := ⟨n - 1, by omega⟩
  have hl : 0 < ((Expr.ternary c x y).toks P).length := by rw [ht]; simp
  exact ⟨m, by omega, by rw [rExpr, hpre m rest (by omega) hf.two]⟩

theorem rPost_method {f : Str} (hf : f ∉ rustKeywords) (n : Nat) (e : RExpr) (ts : List RTok) :
    rPost (n + 1) e (.punct c!"." :: .id f :: .punct c!"(" :: ts) = match rArgs n ts with
    | none => none
    | some (as, rest) => rPost n (.method e f as) rest := by
  rw [rPost, if_pos rfl, if_neg hf, if_pos rfl]
  rfl

theorem rPost_field {f : Str} (hf : f ∉ rustKeywords) (n : Nat) (e : RExpr) {ts : List RTok} (ht : ts.head? ≠ some (.punct c!"(")) :
    rPost (n + 1) e (.punct c!"." :: .id f :: ts) = rPost n (.field e f) ts := by
  cases ts with
  | nil => simp [rPost, hf]
  | cons t ts =>
    cases t with
    | punct q =>
      have : q ≠ c!"(" := by simpa using ht
      rw [rPost, if_pos rfl, if_neg hf, if_neg this]
    | _ => simp [rPost, hf]

theorem rPost_call (n : Nat) (e : RExpr) (ts : List RTok) :
    rPost (n + 1) e (.punct c!"(" :: ts) = match rArgs n ts with
    | none => none
    | some (as, rest) => rPost n (.call e as) rest := by
  conv => lhs; unfold rPost
  rw [if_neg (by decide), if_pos rfl]
  rfl

theorem noIf {x : Str} (hx : x ∉ rustKeywords) : x ≠ c!"if" := by
  rintro rfl
  exact hx (by decide)

theorem noLet {x : Str} (hx : x ∉ rustKeywords) : x ≠ c!"let" := by
  rintro rfl
  exact hx (by decide)

theorem plainHead_id {x : Str} (hx : x ∉ rustKeywords) (ts : List RTok) : PlainHead (.id x :: ts) :=
  ⟨by simpa using noIf hx, by rintro ⟨⟩, by simpa using noLet hx⟩

theorem reads_id {e : Expr} {x : Str} (hx : x ∉ rustKeywords) (hi : isBlockLike e = false) (ht : e.toks P = [.id x]) :
    ReadsBack P e (.name [.id x]) :=
  .of_post (by simp [ht]) (fun _ => by rw [ht]; exact plainHead_id hx _) hi fun n rest hn _ => by
    simp only [ht, List.length_singleton] at hn ⊢
    obtain ⟨m, rfl⟩ : ∃ m, n = m + 1 := ⟨n - 1, by omega⟩
    have := noIf hx
    exact ⟨m, by omega, by simp [rPre, hx, this]⟩

theorem reads_meta {e : Expr} {x : Str} (hi : isBlockLike e = false) (ht : e.toks P = [.punct c!"$", .id x]) :
    ReadsBack P e (.name [.punct c!"$", .id x]) :=
  .of_post (by simp [ht]) (fun _ => by simp [PlainHead, ht]) hi fun n rest hn _ => by
    simp only [ht, List.length_cons, List.length_nil] at hn ⊢
    obtain ⟨m, rfl⟩ : ∃ m, n = m + 1 := ⟨n - 1, by omega⟩
    exact ⟨m, by omega, by simp [rPre]⟩

theorem reads_float (f : LitFloat) : ReadsBack P (.lit (.float f)) (.float f) :=
  .of_post (by simp [Expr.toks, Lit.toks]) (fun _ => by simp [PlainHead, Expr.toks, Lit.toks]) rfl fun n rest hn _ => by
    simp only [Expr.toks, Lit.toks, List.length_singleton] at hn ⊢
    obtain ⟨m, rfl⟩ : ∃ m, n = m + 1 := ⟨n - 1, by omega⟩
    exact ⟨m, by omega, by simp [rPre]⟩

theorem rPre_int (v : Int) (s : Str) (n : Nat) {rest : List RTok} (hf : Follow 2 rest) :
    rPre (n + 2) (.int v s :: rest) = some (rInt v s, rest) := by
  rw [rPre, rPost_stop n _ hf, rInt]
  split <;> rfl

theorem reads_int (i : LitInt) : ReadsBack P (.lit (.int i)) (rInt i.value.toInt) :=
  .of_pre (by simp [Expr.toks, Lit.toks, LitInt.toks]) (fun _ => by simp [PlainHead, Expr.toks, Lit.toks, LitInt.toks]) rfl
    (by
      intro _ hneg n rest hn _
      simp only [Expr.toks, Lit.toks, LitInt.toks, List.length_singleton] at hn ⊢
      obtain ⟨m, rfl⟩ : ∃ m, n = m + 1 := ⟨n - 1, by omega⟩
      simp only [negLit, decide_eq_false_iff_not] at hneg
      exact ⟨m, by omega, by simp [rPre, rInt, hneg]⟩)
    fun n rest hn hf => by
      simp only [Expr.toks, Lit.toks, LitInt.toks, List.length_singleton] at hn ⊢
      obtain ⟨m, rfl⟩ : ∃ m, n = m + 2 := ⟨n - 2, by omega⟩
      exact rPre_int _ _ m hf

/-- A prefix operator. -/
theorem reads_prefix {e x : Expr} {t : RExpr} {o : Str} (ho : o = c!"-" ∨ o = c!"!" ∨ o = c!"*") (h : ReadsBack P x t)
    (hi : isBlockLike e = false) (he : e.prec = 2) (ht : e.toks P = .punct o :: parenIf (decide (x.prec > 2)) (x.toks P)) : ReadsBack P e (.un o t) :=
  .of_pre (by simp [ht]) (fun _ => by rw [ht]; exact plainHead_punct (by rcases ho with rfl | rfl | rfl <;> decide) _) hi (by intro h1; omega) fun n rest hn hf => by
    simp only [ht, List.length_cons] at hn ⊢
    obtain ⟨m, rfl⟩ : ∃ m, n = m + 1 := ⟨n - 1, by omega⟩
    rw [List.cons_append, rPre_op ho, h.operandPre m rest (by omega) hf]

/-- Dereferencing a sum. -/
theorem reads_method {e x y : Expr} {t u : RExpr} {f : Str} (hf : f ∉ rustKeywords) (hx : ReadsBack P x t) (hy : ReadsBack P y u)
    (hn : negLit x = false) (hi : isBlockLike e = false) (he : e.prec = 2)
    (ht : e.toks P = .punct c!"*" :: (parenIf (decide (x.prec > 1)) (x.toks P) ++ .punct c!"." :: .id f :: .punct c!"(" :: (y.toks P ++ [.punct c!")"]))) :
    ReadsBack P e (.un c!"*" (.method t f [u])) :=
  .of_pre (by simp [ht]) (fun _ => by simp [PlainHead, ht]) hi (by intro h1; omega) fun n rest hl hfo => by
    simp only [ht, List.length_cons, List.length_append, List.length_nil] at hl ⊢
    obtain ⟨m, rfl⟩ : ∃ m, n = m + 1 := ⟨n - 1, by omega⟩
    rw [List.cons_append, rPre_op (by decide), List.append_assoc]
    obtain ⟨n', h1, h2⟩ := hx.operandPost hn m
      ((.punct c!"." :: .id f :: .punct c!"(" :: (y.toks P ++ [.punct c!")"])) ++ rest) (by omega) (by simp [NoTail])
    obtain ⟨j, rfl⟩ : ∃ j, n' = j + 1 + 1 := ⟨n' - 2, by omega⟩
    rw [h2]
    simp only [List.cons_append, List.append_assoc, List.nil_append]
    rw [rPost_method hf, hy.arg _ rest (by omega)]
    simp only [rPost_stop j _ hfo]

theorem reads_field {e x : Expr} {t : RExpr} {f : Str} (hf : f ∉ rustKeywords) (hx : ReadsBack P x t) (hn : negLit x = false)
    (hi : isBlockLike e = false) (hb : beginsBlock e = beginsBlock x)
    (ht : e.toks P = parenIf (decide (x.prec > 1)) (x.toks P) ++ [.punct c!".", .id f]) : ReadsBack P e (.field t f) :=
  .of_post (by simp [ht]) (fun h => by rw [ht]; exact head_paren hx (by rw [← hb, h]) _ _ (plainHead_punct (by decide) _)) hi fun n rest hl hr => by
    simp only [ht, List.length_cons, List.length_append, List.length_nil] at hl ⊢
    rw [List.append_assoc]
    obtain ⟨n', h1, h2⟩ := hx.operandPost hn n ([.punct c!".", .id f] ++ rest) (by omega) (by simp [NoTail])
    obtain ⟨j, rfl⟩ : ∃ j, n' = j + 1 := ⟨n' - 1, by omega⟩
    refine ⟨j, by omega, ?_⟩
    rw [h2]
    exact rPost_field hf j t hr.1

theorem rustOp_level {op : BinOp} {o : Str} (h : rustOp op = some o) :
    op.text = o ∧ opLevel o = some op.prec.1 ∧ op.isBlockAssign = false ∧ o ∉ [c!".", c!"(", c!"::", c!"!"] ∧
      (o = c!"<" → op = .lt) ∧ (o = c!"<<" → op = .shl) ∧
      ((op.prec.2 = .left ∧ op.prec.1 ≠ 11 ∧ op.prec.1 ≠ 14) ∨ op.prec = (11, .none) ∨ op.prec = (14, .right)) := by
  cases op <;> simp only [rustOp, Option.some.injEq, reduceCtorEq] at h <;> subst h <;> decide +kernel

theorem rustOp_noBlock {op : BinOp} {o : Str} (h : rustOp op = some o) : (blockOps.map Prod.fst).contains op = false := by
  cases op <;> first | rfl | cases h

theorem reads_bin {l r : Expr} {op : BinOp} {o : Str} {t u : RExpr} (ho : rustOp op = some o) (hl : ReadsBack P l t)
    (hr : ReadsBack P r u) (h1 : op = .lt → endsCast l = false) (h2 : op = .shl → endsCast l = true → isCast l = true) :
    ReadsBack P (.bin l op r) (.bin o t u) := by
  obtain ⟨e1, e2, e3, e4, e5, e6, e7⟩ := rustOp_level ho
  have h5 := opLevel_ge e2
  have htoks : (Expr.bin l op r).toks P = parenIf (lhsParens op l) (l.toks P) ++ .punct o :: parenIf (rhsParens op r) (r.toks P) := by
    simp [Expr.toks, binaryToks, e3, e1]
  have hp : (Expr.bin l op r).prec = op.prec.1 := rfl
  have ha := prec_le l
  have hb := prec_le r
  have hel := edge_le l
  have her := edge_le r
  -- the left operand
  have hl1 : lhsParens op l = false → l.prec ≤ op.prec.1 ∧ edge l < op.prec.1 := by
    intro h
    simp only [lhsParens, Bool.or_eq_false_iff] at h
    rcases e7 with ⟨e7, e8, e9⟩ | e7 | e7
    · rw [show op.prec = (op.prec.1, Assoc.left) by rw [← e7]] at h
      simp only [decide_eq_false_iff_not] at h
      refine ⟨by omega, ?_⟩
      by_cases hq : l.prec = op.prec.1
      · cases l with
        | bin x op' y =>
          simp only [Expr.prec] at hq
          simp only [edge]
          rw [if_neg (by omega)]
          omega
        | _ => simp only [edge]; omega
      · omega
    · rw [e7] at h ⊢
      simp only [decide_eq_false_iff_not] at h
      simp only
      omega
    · rw [e7] at h
      simp only [decide_eq_false_iff_not] at h
      omega
  have hl2 : lhsParens op l = false → endsCast l = true → o ≠ c!"<" ∧ o ≠ c!"<<" := by
    intro h hc
    constructor
    · intro he
      rw [h1 (e5 he)] at hc
      cases hc
    · intro he
      have hop := e6 he
      have hi := h2 hop hc
      subst hop
      simp only [lhsParens, Bool.or_eq_false_iff] at h
      cases l <;> simp [isCast] at hi
      simp [Expr.isCastLike] at h
  -- the right operand
  have hr1 : rhsParens op r = false → r.prec ≤ rightLevel op.prec.1 := by
    intro h
    simp only [rhsParens] at h
    rcases e7 with ⟨e7, e8, e9⟩ | e7 | e7
    · rw [show op.prec = (op.prec.1, Assoc.left) by rw [← e7]] at h
      simp only [decide_eq_false_iff_not] at h
      simp only [rightLevel, if_neg e9]
      omega
    · rw [e7] at h ⊢
      simp only [decide_eq_false_iff_not] at h
      show r.prec ≤ 10
      omega
    · rw [e7]
      exact hb
  have hedge : rightLevel op.prec.1 ≤ edge (.bin l op r) ∧ 4 ≤ rightLevel op.prec.1 ∧ (op.prec.1 = 11 → 11 ≤ edge (.bin l op r)) := by
    simp only [edge, rightLevel]
    split <;> split <;> omega
  have hnb : isBlockLike (.bin l op r) = false := by cases op <;> first | rfl | cases ho
  have ho' : o ≠ c!"{" := by rintro rfl; revert e2; rw [show opLevel c!"{" = none by decide]; intro h; cases h
  refine ⟨?_, ?_, ?_, ?_, fun h => (by rw [hnb] at h; cases h)⟩
  · intro h; rw [hp] at h; omega
  · intro h; rw [hp] at h; omega
  rotate_left
  · intro h
    rw [htoks]
    simp only [beginsBlock, Bool.or_eq_false_iff] at h
    exact head_paren hl h.2 _ _ (plainHead_punct ho' _)
  · intro k n rest hk hn hf hc
    rw [htoks] at hn ⊢
    rw [hp] at hk
    simp only [List.length_append, List.length_cons] at hn ⊢
    rw [List.append_assoc, List.cons_append]
    obtain ⟨n1, q1, q2⟩ := hl.operand (lhsParens op l) k n (.punct o :: (parenIf (rhsParens op r) (r.toks P) ++ rest))
      (fun h => by have := (hl1 h).1; omega) (by omega)
      ⟨e4, fun i hi => by rw [e2] at hi; cases hi; omega⟩
      (fun h => ⟨e4, fun i hi => by rw [e2] at hi; cases hi; exact (hl1 h).2⟩)
      (fun h h' => hl2 h h')
    obtain ⟨m, rfl⟩ : ∃ m, n1 = m + 1 := ⟨n1 - 1, by omega⟩
    obtain ⟨n2, q3, q4⟩ := hr.operand (rhsParens op r) (rightLevel op.prec.1) m rest hr1 (by omega) hf.two
      (fun h => hf.le (by have := hr1 h; omega)) (fun _ h' => hc (by simpa [endsCast] using h'))
    obtain ⟨j, rfl⟩ : ∃ j, n2 = j + 1 := ⟨n2 - 1, by omega⟩
    refine ⟨m, by omega, ?_⟩
    rw [q2, rClimb, e2]
    simp only
    rw [if_neg (by omega), q4, rClimb_stop j _ u (hf.le hedge.1)]
    simp only
    rw [if_neg]
    rintro ⟨h11, hs⟩
    have hf' := hf.le (hedge.2.2 h11)
    cases rest with
    | nil => cases hs
    | cons x rest =>
      cases x with
      | punct p =>
        simp only [startsCmp, beq_iff_eq] at hs
        have := hf'.2 11 hs
        omega
      | _ => cases hs

theorem castLit_shape (v : Int) : castLit v = [.int v (castSuffix v)] := by
  unfold castLit castSuffix
  repeat' split
  all_goals first | rfl | omega

theorem reads_cast {ty : Ty} {x : Expr} {t : RExpr} (hp : PlainCast ty x) (hty : TypeText (ty.toks P)) (hx : (∀ i, x ≠ .lit (.int i)) → ReadsBack P x t)
    (hint : ∀ i, x = .lit (.int i) → t = rInt i.value.toInt (castSuffix i.value.toInt)) : ReadsBack P (.cast ty x) (.cast t (ty.toks P)) := by
  have htoks : (Expr.cast ty x).toks P = castOperand x (x.toks P) ++ .id c!"as" :: ty.toks P := by
    have h1 : (ty.isConstPtr && x.isZeroLit) = false := by
      cases hz : x.isZeroLit with
      | false => simp
      | true =>
        rcases hp.2 with h | ⟨_, h⟩
        · cases x with
          | lit l =>
            cases l <;> simp [Expr.isZeroLit] at hz
            exact absurd hz (h _ rfl)
          | _ => simp [Expr.isZeroLit] at hz
        · cases ty with
          | qualified t q => cases t <;> simp [Ty.isConstPtr]; exact absurd rfl (h _ _)
          | _ => simp [Ty.isConstPtr]
    have h2 : (ty.isPlainPtr && x.isZeroLit) = false := by
      cases hz : x.isZeroLit with
      | false => simp
      | true =>
        rcases hp.2 with h | ⟨h, _⟩
        · cases x with
          | lit l =>
            cases l <;> simp [Expr.isZeroLit] at hz
            exact absurd hz (h _ rfl)
          | _ => simp [Expr.isZeroLit] at hz
        · cases ty <;> simp [Ty.isPlainPtr]
          exact absurd rfl (h _)
    have h3 : ty.isVoid = false := by
      unfold Ty.isVoid
      split
      · exact absurd rfl hp.1
      · rfl
    simp [Expr.toks, castToks, h1, h2, h3]
  have hprec : (Expr.cast ty x).prec = 3 := rfl
  -- the operand
  have hop : ∀ k n rest, 3 ≤ k → 2 * (castOperand x (x.toks P)).length < n →
      ∃ n', n ≤ n' + 2 * (castOperand x (x.toks P)).length ∧
        rExpr n k (castOperand x (x.toks P) ++ .id c!"as" :: rest) = rClimb n' k t (.id c!"as" :: rest) := by
    intro k n rest hk hn
    have hfol : Follow 2 (.id c!"as" :: rest) := fun _ => by omega
    by_cases hi : ∃ i, x = .lit (.int i)
    · obtain ⟨i, rfl⟩ := hi
      have hs := castLit_shape i.value.toInt
      simp only [castOperand, hs, List.length_singleton, List.cons_append, List.nil_append] at hn ⊢
      obtain ⟨m, rfl⟩ : ∃ m, n = m + 3 := ⟨n - 3, by omega⟩
      refine ⟨m + 2, by omega, ?_⟩
      rw [rExpr, rPre_int _ _ m hfol, hint i rfl]
    · have hc : castOperand x (x.toks P) = parenIf (decide (x.prec > 3)) (x.toks P) := by
        unfold castOperand
        split
        · exact absurd ⟨_, rfl⟩ hi
        · rfl
      rw [hc] at hn ⊢
      refine (hx fun i h => hi ⟨i, h⟩).operand _ k n _ (fun h => ?_) hn hfol (fun h => hfol.le ?_) (fun _ _ => trivial)
      · simp at h; omega
      · simp at h
        cases x with
        | bin a op b =>
          simp only [Expr.prec] at h
          simp only [edge]
          cases op <;> simp [BinOp.prec] at h ⊢
        | _ => simp [edge]
  refine ⟨?_, ?_, ?_, ?_, fun h => (by cases h)⟩
  · intro h; rw [hprec] at h; omega
  · intro h; rw [hprec] at h; omega
  rotate_left
  · intro h
    rw [htoks]
    by_cases hi : ∃ i, x = .lit (.int i)
    · obtain ⟨i, rfl⟩ := hi
      have hs := castLit_shape i.value.toInt
      simp [PlainHead, castOperand, hs]
    · have hc : castOperand x (x.toks P) = parenIf (decide (x.prec > 3)) (x.toks P) := by
        unfold castOperand
        split
        · exact absurd ⟨_, rfl⟩ hi
        · rfl
      rw [hc]
      exact head_paren (hx fun i h => hi ⟨i, h⟩) h _ _ (by simp [PlainHead])
  · intro k n rest hk hn hf hc
    rw [htoks] at hn ⊢
    rw [hprec] at hk
    simp only [List.length_append, List.length_cons] at hn ⊢
    rw [List.append_assoc, List.cons_append]
    obtain ⟨n1, q1, q2⟩ := hop k n (ty.toks P ++ rest) hk (by omega)
    obtain ⟨m, rfl⟩ : ∃ m, n1 = m + 1 := ⟨n1 - 1, by omega⟩
    refine ⟨m, by omega, ?_⟩
    rw [q2, rClimb, if_pos ⟨rfl, hk⟩, rTy_text (endsType_of hf (hc rfl)) hty]

/-- An argument of a call, followed by a comma or a closing parenthesis. -/
def ReadsArg (w : List RTok) (t : RExpr) : Prop :=
  ∀ n q rest, (q = c!")" ∨ q = c!",") → 2 * w.length < n → rExpr n 14 (w ++ .punct q :: rest) = some (t, .punct q :: rest)

theorem follow_sep {q : Str} (hq : q = c!")" ∨ q = c!",") (j : Nat) (rest : List RTok) : Follow j (.punct q :: rest) := by
  rcases hq with rfl | rfl
  · exact follow_close _ _
  · exact follow_comma _ _

theorem ReadsBack.readsArg {e : Expr} {t : RExpr} (h : ReadsBack P e t) : ReadsArg (e.toks P) t := by
  intro n q rest hq hn
  obtain ⟨n', h1, h2⟩ := h.main 14 n (.punct q :: rest) (prec_le e) hn (follow_sep hq _ _)
    (fun _ => by rcases hq with rfl | rfl <;> exact ⟨by decide, by decide⟩)
  obtain ⟨j, rfl⟩ : ∃ j, n' = j + 1 := ⟨n' - 1, by omega⟩
  rw [h2, rClimb_stop j 14 t (follow_sep hq _ _)]

theorem ReadsBack.readsInto {e : Expr} {t : RExpr} (h : ReadsBack P e t) :
    ReadsArg (parenToks (e.toks P) ++ q!". into ( )") (.method t c!"into" []) := by
  intro n q rest hq hn
  simp only [List.length_append, parenToks_length, List.length_cons, List.length_nil] at hn
  obtain ⟨m, rfl⟩ : ∃ m, n = m + 1 := ⟨n - 1, by omega⟩
  obtain ⟨n', h1, h2⟩ := h.paren m (q!". into ( )" ++ .punct q :: rest) (by omega)
  obtain ⟨j, rfl⟩ : ∃ j, n' = j + 1 + 1 := ⟨n' - 2, by omega⟩
  rw [List.append_assoc, rExpr, h2]
  simp only [List.cons_append, List.nil_append]
  rw [rPost_method (by decide), rArgs, if_pos (by rfl)]
  simp only [List.tail_cons]
  rw [rPost_stop j _ (follow_sep hq 2 _)]
  obtain ⟨i, rfl⟩ : ∃ i, m = i + 1 := ⟨m - 1, by omega⟩
  exact rClimb_stop i 14 _ (follow_sep hq 14 _)

/-- Lists of arguments. -/
inductive ReadsArgs : List (List RTok) → List RExpr → Prop
  | nil : ReadsArgs [] []
  | cons {w t ws ts} : ReadsArg w t → ReadsArgs ws ts → ReadsArgs (w :: ws) (t :: ts)

theorem ReadsArg.head {w : List RTok} {t : RExpr} (h : ReadsArg w t) (q : Str) (hq : q = c!")" ∨ q = c!",") (rest : List RTok) :
    (w ++ .punct q :: rest).head? ≠ some (.punct c!")") := by
  intro hh
  have h2 := h (2 * w.length + 1) q rest hq (by omega)
  cases hx : w ++ RTok.punct q :: rest with
  | nil => simp at hx
  | cons x xs =>
    rw [hx] at hh h2
    simp only [List.head?_cons, Option.some.injEq] at hh
    rw [hh, rExpr_close] at h2
    cases h2

theorem reads_args {ws : List (List RTok)} {ts : List RExpr} (h : ReadsArgs ws ts) : ∀ n rest, 2 * (sepToks q!"," ws).length + 2 ≤ n →
    rArgs n (sepToks q!"," ws ++ .punct c!")" :: rest) = some (ts, rest) := by
  induction h with
  | nil =>
    intro n rest hn
    obtain ⟨m, rfl⟩ : ∃ m, n = m + 1 := ⟨n - 1, by omega⟩
    simp [sepToks, rArgs]
  | @cons w t ws ts h1 h2 ih =>
    intro n rest hn
    obtain ⟨m, rfl⟩ : ∃ m, n = m + 1 := ⟨n - 1, by omega⟩
    cases ws with
    | nil =>
      cases h2
      simp only [sepToks] at hn ⊢
      rw [rArgs, if_neg (h1.head _ (.inl rfl) rest), h1 m _ rest (.inl rfl) (by omega)]
      simp
    | cons w' ws =>
      simp only [sepToks, List.length_append, List.length_cons, List.length_nil] at hn
      have ih := ih m rest (by omega)
      simp only [sepToks, List.append_assoc, List.cons_append, List.nil_append] at ih ⊢
      rw [rArgs, if_neg (h1.head _ (.inr rfl) _), h1 m _ _ (.inr rfl) (by omega)]
      simp only
      rw [if_neg (by decide), if_pos trivial, ih]

theorem argNameToks_nil {e : Expr} {t : RExpr} (h : RustTree P e t) : argNameToks P e = [] := by
  cases h <;> simp_all [argNameToks]

theorem reads_call {f : Str} {as : List Expr} {ts : List RExpr} (hf : f ∉ rustKeywords) (ho : f = c!"__builtin_offsetof" → as.length ≠ 2)
    (h : ReadsArgs (List.zipWith (callArgToks P true) as (Expr.toksL P as)) ts) :
    ReadsBack P (.call (.plain f) as) (.call (.name [.id f]) ts) := by
  have ht : (Expr.call (.plain f) as).toks P = .id f :: .punct c!"(" ::
      (sepToks q!"," (List.zipWith (callArgToks P true) as (Expr.toksL P as)) ++ [.punct c!")"]) := by
    have : isOffsetof (.plain f) as = false := by simpa [isOffsetof] using ho
    simp [Expr.toks, callToks, this, IdentExpr.toks]
  refine .of_post (by simp [ht]) (fun _ => by rw [ht]; exact plainHead_id hf _) rfl fun n rest hn _ => ?_
  simp only [ht, List.length_cons, List.length_append, List.length_nil] at hn ⊢
  obtain ⟨m, rfl⟩ : ∃ m, n = m + 1 + 1 := ⟨n - 2, by omega⟩
  refine ⟨m, by omega, ?_⟩
  simp only [List.cons_append, List.append_assoc, List.nil_append]
  rw [rPre, if_neg (noIf hf), if_neg fun h => hf h.1, rPost_call, reads_args h m rest (by omega)]

theorem sepToks_last (x : Str) : ∀ segs : List Str, sepToks q!"::" ((segs ++ [x]).map fun s => [RTok.id s])
    = segs.flatMap (fun s => [.id s, .punct c!"::"]) ++ [.id x]
  | [] => rfl
  | [a] => rfl
  | a :: b :: segs => by
    have := sepToks_last x (b :: segs)
    simp only [List.cons_append, List.map_cons, sepToks, List.flatMap_cons] at this ⊢
    rw [this]
    rfl

/-- The tokens of a type in the module of the foreign types. -/
theorem prefixed_toks (pre : Option RPath) (x : Str) : (RTy.prefixed pre x).toks = (match pre with
    | none => []
    | some p => (if p.leadingColon then [.punct c!"::"] else []) ++ p.segs.flatMap fun s => [.id s, .punct c!"::"])
      ++ [RTok.id x] := by
  cases pre with
  | none => rfl
  | some p => simp only [RTy.prefixed, RTy.toks, RPath.toks, sepToks_last, List.append_assoc]

theorem rPost_colons (n : Nat) (e : RExpr) (ts : List RTok) : rPost (n + 1) e (.punct c!"::" :: ts) = match pathStep e ts with
    | none => none
    | some (e, rest) => rPost n e rest := by
  conv => lhs; unfold rPost
  simp only [show c!"::" ≠ c!"." by decide, show c!"::" ≠ c!"(" by decide, if_false, if_true]
  rfl

theorem rPost_path {rest : List RTok} (hr : rest.head? ≠ some (.punct c!"::")) : ∀ (segs : List Str) (x : Str) (ys : List RTok) (n : Nat),
    rPost (n + segs.length + 2) (.name ys) (.punct c!"::" :: ((segs.flatMap fun s => [.id s, .punct c!"::"]) ++ .id x :: .punct c!"::" :: .id c!"MAX" :: rest))
      = rPost n (.max (ys ++ .punct c!"::" :: ((segs.flatMap fun s => [.id s, .punct c!"::"]) ++ [.id x]))) rest
  | [], x, ys, n => by
    show rPost (n + 1 + 1) _ _ = _
    rw [rPost_colons]
    simp [pathStep, rPost_colons, hr]
  | s :: segs, x, ys, n => by
    have ih := rPost_path hr segs x (ys ++ [.punct c!"::", .id s]) n
    have e1 : n + (s :: segs).length + 2 = (n + segs.length + 2) + 1 := by simp; omega
    rw [e1, rPost_colons]
    simp only [List.flatMap_cons, List.cons_append, List.nil_append, List.append_assoc] at ih ⊢
    simp only [pathStep, List.head?_cons, ne_eq, not_true_eq_false, and_false, if_false]
    exact ih

theorem flat_length (xs : List Str) : (xs.flatMap fun s => [RTok.id s, .punct c!"::"]).length = 2 * xs.length := by
  induction xs with
  | nil => rfl
  | cons a xs ih => simp only [List.flatMap_cons, List.length_append, ih, List.length_cons, List.length_nil]; omega

theorem limit_cases {id : Str} {b : BuiltInType} (h : limitOf id = some b) :
    (id, b) ∈ [(c!"__SCHAR_MAX__", BuiltInType.sChar), (c!"__SHRT_MAX__", .short), (c!"__INT_MAX__", .int), (c!"__LONG_MAX__", .long),
      (c!"__LONG_LONG_MAX__", .longLong)] := by
  unfold limitOf at h
  simp only [List.lookup] at h
  repeat' split at h
  all_goals first | (cases h; done) | (injection h with h; subst h; simp_all)

theorem limit_varToks {id : Str} {b : BuiltInType} (h : limitOf id = some b) : ∃ x, x ∉ rustKeywords ∧
    (Ty.builtIn b).toks P = (RTy.prefixed P.C.ffiPrefix x).toks ∧
    varToks P (.plain id) = prefixToks P.C.ffiPrefix ++ [.id x] ++ q!":: MAX" := by
  have := limit_cases h
  simp only [List.mem_cons, Prod.mk.injEq, List.not_mem_nil, or_false] at this
  rcases this with ⟨rfl, rfl⟩ | ⟨rfl, rfl⟩ | ⟨rfl, rfl⟩ | ⟨rfl, rfl⟩ | ⟨rfl, rfl⟩ <;> exact ⟨_, by decide, rfl, rfl⟩

theorem sepToks_first (x : Str) : ∀ xs : List Str, sepToks q!"::" ((x :: xs).map fun s => [RTok.id s]) ++ [.punct c!"::"]
    = .id x :: .punct c!"::" :: xs.flatMap fun s => [.id s, .punct c!"::"]
  | [] => rfl
  | y :: xs => by
    have := sepToks_first y xs
    simp only [List.map_cons, sepToks, List.append_assoc, List.flatMap_cons, List.cons_append, List.nil_append] at this ⊢
    rw [this]

theorem reads_limit {id : Str} {b : BuiltInType} (h : limitOf id = some b) (hr : Rooted P.C.ffiPrefix) :
    ReadsBack P (.var (.plain id)) (.max ((Ty.builtIn b).toks P)) := by
  obtain ⟨x, hx, h1, h2⟩ := limit_varToks (P := P) h
  have ht : (Expr.var (.plain id)).toks P = prefixToks P.C.ffiPrefix ++ [.id x] ++ q!":: MAX" := by rw [Expr.toks, h2]
  rw [h1, prefixed_toks]
  cases hp : P.C.ffiPrefix with
  | none =>
    rw [hp] at ht
    have ht : (Expr.var (.plain id)).toks P = [.id x, .punct c!"::", .id c!"MAX"] := ht
    refine .of_post (by simp [ht]) (fun _ => by rw [ht]; exact plainHead_id hx _) rfl fun n rest hn hf => ?_
    simp only [ht, List.length_cons, List.length_nil, List.cons_append, List.nil_append] at hn ⊢
    obtain ⟨m, rfl⟩ : ∃ m, n = m + 1 + 1 := ⟨n - 2, by omega⟩
    refine ⟨m, by omega, ?_⟩
    rw [rPre, if_neg (noIf hx), if_neg fun h => hx h.1, rPost_colons]
    simp [pathStep, hf.2]
  | some p =>
    obtain ⟨s, xs, hs, hk⟩ := hr p hp
    have ht : (Expr.var (.plain id)).toks P = (if p.leadingColon then [.punct c!"::"] else []) ++ .id s :: .punct c!"::" ::
        ((xs.flatMap fun s => [.id s, .punct c!"::"]) ++ .id x :: .punct c!"::" :: [.id c!"MAX"]) := by
      have := sepToks_first s xs
      rw [ht, hp]
      simp only [prefixToks, RPath.toks, hs, List.append_assoc]
      rw [← List.append_assoc (sepToks _ _)]
      have e : q!"::" = [RTok.punct c!"::"] := rfl
      rw [e] at this ⊢
      rw [this]
      simp
    cases hl : p.leadingColon with
    | true =>
      rw [hl, if_pos rfl] at ht
      simp only [List.cons_append, List.nil_append] at ht
      refine .of_post (by simp [ht]) (fun _ => by simp [PlainHead, ht]) rfl fun n rest hn hf => ?_
      simp only [ht, List.length_cons, List.length_append, List.length_nil, List.cons_append, List.append_assoc, List.nil_append] at hn ⊢
      have hlen := flat_length xs
      obtain ⟨m, rfl⟩ : ∃ m, n = m + xs.length + 2 + 1 := ⟨n - (xs.length + 3), by omega⟩
      refine ⟨m, by omega, ?_⟩
      have := rPost_path hf.2 xs x [.punct c!"::", .id s] m
      rw [rPre]
      simp only [hs, hl, show ¬ (c!"::" = c!"-" ∨ c!"::" = c!"!" ∨ c!"::" = c!"*") by decide, show c!"::" ≠ c!"(" by decide,
        show c!"::" ≠ c!"$" by decide, if_false, if_true, this, List.flatMap_cons, List.cons_append, List.nil_append]
    | false =>
      have hk := hk hl
      have hsi : s ≠ c!"if" := by
        rcases hk with h | h
        · exact noIf h
        · rintro rfl; revert h; decide
      rw [hl] at ht
      simp only [Bool.false_eq_true, if_false, List.nil_append] at ht
      have hsl : s ≠ c!"let" := by
        rcases hk with h | h
        · exact noLet h
        · rintro rfl; revert h; decide
      refine .of_post (by simp [ht]) (fun _ => by rw [ht]; exact ⟨by simpa using hsi, by rintro ⟨⟩, by simpa using hsl⟩) rfl fun n rest hn hf => ?_
      simp only [ht, List.length_cons, List.length_append, List.length_nil, List.cons_append, List.append_assoc, List.nil_append] at hn ⊢
      have hlen := flat_length xs
      obtain ⟨m, rfl⟩ : ∃ m, n = m + xs.length + 2 + 1 := ⟨n - (xs.length + 3), by omega⟩
      refine ⟨m, by omega, ?_⟩
      have := rPost_path hf.2 xs x [.id s] m
      rw [rPre, if_neg hsi, if_neg, this]
      · simp only [hs, hl, Bool.false_eq_true, if_false, List.nil_append]
        rfl
      · rintro ⟨h1, h2⟩
        exact hk.elim (fun h => h h1) fun h => h2 ⟨h, rfl⟩

theorem isReserved_varToks {id : Str} (h : id ∉ reservedNames) (he : P.C.resolveEnumVariant id = none) :
    varToks P (.plain id) = [.id id] := by
  simp only [reservedNames, List.mem_cons, List.not_mem_nil, or_false, not_or] at h
  simp [varToks, limitName, h, he]

theorem derefToks_plain {e : Expr} (h : PlainPointer e) (raw : List RTok) (kids : List (List RTok)) :
    derefToks P e raw kids = .punct c!"*" :: parenIf (decide (e.prec > 2)) raw := by
  unfold derefToks
  cases e with
  | bin l op r =>
    simp only [PlainPointer] at h
    cases op <;> simp_all
  | un op x =>
    simp only [PlainPointer] at h
    cases op <;> simp_all
  | cast ty x => cases h
  | _ => rfl

/-! ## Blocks -/

/-- Tokens that end an expression. -/
def Ender (ts : List RTok) : Prop := ∃ p r, ts = .punct p :: r ∧ p ∈ [c!";", c!"{", c!"}"]

theorem Ender.follow {ts : List RTok} (h : Ender ts) (j : Nat) : Follow j ts := by
  obtain ⟨p, r, rfl, hp⟩ := h
  refine ⟨(by decide : ∀ p ∈ [c!";", c!"{", c!"}"], p ∉ [c!".", c!"(", c!"::", c!"!"]) p hp, fun i h => ?_⟩
  rw [(by decide : ∀ p ∈ [c!";", c!"{", c!"}"], opLevel p = none) p hp] at h
  cases h

theorem Ender.noLess {ts : List RTok} (h : Ender ts) : NoLess ts := by
  obtain ⟨p, r, rfl, hp⟩ := h
  exact (by decide : ∀ p ∈ [c!";", c!"{", c!"}"], p ≠ c!"<" ∧ p ≠ c!"<<") p hp

theorem ReadsBack.whole {e : Expr} {t : RExpr} (h : ReadsBack P e t) {n : Nat} (hn : 2 * (e.toks P).length < n) {rest : List RTok} (hr : Ender rest) :
    rExpr n 14 (e.toks P ++ rest) = some (t, rest) := by
  obtain ⟨n', h1, h2⟩ := h.main 14 n rest (prec_le e) hn (hr.follow _) (fun _ => hr.noLess)
  obtain ⟨j, rfl⟩ : ∃ j, n' = j + 1 := ⟨n' - 1, by omega⟩
  rw [h2, rClimb_stop j 14 t (hr.follow _)]

theorem target_prec {l : Expr} (h : isTarget l = true) : l.prec ≤ 2 ∧ edge l ≤ 2 := by
  cases l with
  | var _ => simp [Expr.prec, edge]
  | un op _ => cases op <;> simp [isTarget] at h; simp [Expr.prec, UnOp.prec, edge]
  | bin _ op _ => cases op <;> simp [isTarget] at h; simp [Expr.prec, BinOp.prec, edge]
  | _ => simp [isTarget] at h

/-- An assignment without the block around it. -/
theorem assign_whole {l : Expr} {t u : RExpr} (hl : ReadsBack P l t) (hp : edge l ≤ 2) {o : Str} (ho : o ∈ blockOps.map Prod.snd) {ts rest : List RTok} {m : Nat}
    (hm : 2 * ((l.toks P).length + ts.length) + 2 < m) (hr : Ender rest) (hts : ∀ n, 2 * ts.length < n → rExpr n 14 (ts ++ rest) = some (u, rest)) :
    rExpr m 14 (l.toks P ++ .punct o :: (ts ++ rest)) = some (.bin o t u, rest) := by
  have hlev : opLevel o = some 14 := (by decide : ∀ o ∈ blockOps.map Prod.snd, opLevel o = some 14) o ho
  have hnp : o ∉ [c!".", c!"(", c!"::", c!"!"] := (by decide : ∀ o ∈ blockOps.map Prod.snd, o ∉ [c!".", c!"(", c!"::", c!"!"]) o ho
  have hno : o ≠ c!"<" ∧ o ≠ c!"<<" := (by decide : ∀ o ∈ blockOps.map Prod.snd, o ≠ c!"<" ∧ o ≠ c!"<<") o ho
  obtain ⟨n', h1, h2⟩ := hl.main 14 m (.punct o :: (ts ++ rest)) (prec_le l) (by omega)
    ⟨hnp, fun i hi => by rw [hlev] at hi; cases hi; omega⟩ (fun _ => hno)
  obtain ⟨j, rfl⟩ : ∃ j, n' = j + 2 := ⟨n' - 2, by omega⟩
  rw [h2, rClimb]
  simp only [hlev, show ¬ (14 < 14) by omega, if_false, show rightLevel 14 = 14 from rfl, hts (j + 1) (by omega), show ¬ (14 = 11 ∧ startsCmp rest = true) by simp,
    if_false]
  exact rClimb_stop j 14 _ (hr.follow _)

theorem Spec.RustTree.noVolatile {l : Expr} {t : RExpr} (h : RustTree P l t) : isVolatileDeref l = false := by
  cases h with
  | un h _ => rename_i op o e t _; cases op <;> simp [rustPrefix] at h <;> rfl
  | @deref e t h _ =>
    cases e with
    | cast ty x => exact absurd h id
    | _ => rfl
  | step h _ _ =>
    simp only [stepOps, List.mem_cons, Prod.mk.injEq, List.not_mem_nil, or_false] at h
    rcases h with ⟨rfl, _⟩ | ⟨rfl, _⟩ <;> rfl
  | postStep h _ _ =>
    simp only [postOps, List.mem_cons, Prod.mk.injEq, List.not_mem_nil, or_false] at h
    rcases h with ⟨rfl, _⟩ | ⟨rfl, _⟩ <;> rfl
  | _ => rfl

theorem Spec.RustTree.toks_ne {e : Expr} {t : RExpr} (h : ReadsBack P e t) : e.toks P ≠ [] := by
  intro h0
  have := h.whole (n := 1) (rest := [.punct c!";"]) (by rw [h0]; decide) ⟨_, _, rfl, by decide⟩
  rw [h0] at this
  simp [rExpr, rPre] at this

theorem num_whole (n : Nat) (rest : List RTok) (hr : Ender rest) (hn : 2 < n) : rExpr n 14 ([.int 1 []] ++ rest) = some (.num 1, rest) := by
  obtain ⟨n, rfl⟩ : ∃ m, n = m + 3 := ⟨n - 3, by omega⟩
  have h1 : rPre (n + 2) ([.int 1 []] ++ rest) = some (.num 1, rest) := by
    have := rPost_stop n (.num 1) (hr.follow 14)
    simp only [List.singleton_append, rPre, show ¬ ((1 : Int) < 0) by decide, if_false, show Int.natAbs 1 = 1 from rfl, this]
  rw [rExpr, h1]
  exact rClimb_stop _ _ _ (hr.follow _)

theorem prev_whole (n : Nat) (rest : List RTok) (hr : Ender rest) (hn : 2 < n) :
    rExpr n 14 ([.id c!"prev"] ++ rest) = some (.name [.id c!"prev"], rest) := by
  obtain ⟨n, rfl⟩ : ∃ m, n = m + 3 := ⟨n - 3, by omega⟩
  have h1 : rPre (n + 2) ([.id c!"prev"] ++ rest) = some (.name [.id c!"prev"], rest) := by
    have := rPost_stop n (.name [.id c!"prev"]) (hr.follow 14)
    simp only [List.singleton_append, rPre, if_neg (show c!"prev" ≠ c!"if" by decide), show c!"prev" ∉ rustKeywords by decide, false_and, if_false, this]
  rw [rExpr, h1]
  exact rClimb_stop _ _ _ (hr.follow _)

theorem target_noIf {l : Expr} (h : isTarget l = true) : beginsBlock l = false := by
  unfold isTarget at h
  split at h
  · rfl
  · rfl
  · simpa [beginsBlock, blockOps] using h
  · cases h

/-- An expression that is written as a block. -/
theorem reads_braces {e : Expr} {t : RExpr} {body : List RTok} (ht : e.toks P = .punct c!"{" :: (body ++ [.punct c!"}"]))
    (hb : beginsBlock e = true) (h : ∀ n rest, 2 * body.length + 2 ≤ n → rBlock n (body ++ .punct c!"}" :: rest) = some (t, rest)) :
    ReadsBack P e t := by
  have post : ∀ n rest, 2 * (e.toks P).length ≤ n →
      ∃ n', n < n' + 2 * (e.toks P).length ∧ rPre n (e.toks P ++ rest) = rPost n' t rest := by
    intro n rest hn
    rw [ht] at hn ⊢
    simp only [List.length_cons, List.length_append, List.length_nil] at hn ⊢
    obtain ⟨m, rfl⟩ : ∃ m, n = m + 1 := ⟨n - 1, by omega⟩
    refine ⟨m, by omega, ?_⟩
    have := h m rest (by omega)
    simp only [List.cons_append, List.append_assoc, List.nil_append]
    rw [rPre_block, this]
  have hpre : ∀ n rest, 2 * (e.toks P).length ≤ n → Follow 2 rest → rPre n (e.toks P ++ rest) = some (t, rest) := by
    intro n rest hn hf
    obtain ⟨n', h1, h2⟩ := post n rest hn
    obtain ⟨m, rfl⟩ : ∃ m, n' = m + 1 := ⟨n' - 1, by omega⟩
    rw [h2, rPost_stop m _ hf]
  have hl : 0 < (e.toks P).length := by rw [ht]; simp
  refine ⟨fun _ _ n rest hn _ => post n rest hn, fun _ => hpre, ?_, fun h => (by rw [hb] at h; cases h), fun _ n rest hn => ?_⟩
  · intro k n rest _ hn hf _
    obtain ⟨m, rfl⟩ : ∃ m, n = m + 1 := ⟨n - 1, by omega⟩
    exact ⟨m, by omega, by rw [rExpr, hpre m rest (by omega) hf.two]⟩
  · rw [ht] at hn ⊢
    simp only [List.length_cons, List.length_append, List.length_nil] at hn
    refine ⟨by rintro ⟨⟩, ?_⟩
    have := h n rest (by omega)
    simp only [List.cons_append, List.append_assoc, List.nil_append]
    rw [rHead, List.head?_cons, if_neg (by rintro ⟨⟩), if_pos rfl, List.tail_cons, this]

theorem ender_semi (ts : List RTok) : Ender (.punct c!";" :: ts) := ⟨_, _, rfl, by decide⟩

/-- An assignment at the beginning of a block. -/
theorem block_assign {l : Expr} {t u v : RExpr} (hl : ReadsBack P l t) (ht : isTarget l = true) {o : Str} (ho : o ∈ blockOps.map Prod.snd)
    {ts us rest : List RTok} {m : Nat} (hm : 2 * ((l.toks P).length + ts.length) + 2 < m)
    (hts : ∀ n, 2 * ts.length < n → rExpr n 14 (ts ++ .punct c!";" :: us) = some (u, .punct c!";" :: us))
    (hu : rBlock m us = some (v, rest)) :
    rBlock (m + 1) (l.toks P ++ .punct o :: (ts ++ .punct c!";" :: us)) = some (.seq (.bin o t u) v, rest) := by
  have hh : PlainHead (l.toks P ++ .punct o :: (ts ++ .punct c!";" :: us)) :=
    (hl.head (target_noIf ht)).append (plainHead_punct ((by decide : ∀ o ∈ blockOps.map Prod.snd, o ≠ c!"{") o ho) _)
  refine rBlock_seq hh.2.2 ?_ hu
  rw [rHead_plain hh]
  exact assign_whole hl (target_prec ht).2 ho hm (ender_semi _) hts

theorem target_block {l : Expr} {t : RExpr} (hl : ReadsBack P l t) (ht : isTarget l = true) (n : Nat) (rest : List RTok)
    (hn : 2 * (l.toks P).length + 2 ≤ n) : rBlock n (l.toks P ++ .punct c!"}" :: rest) = some (t, rest) :=
  hl.block (.inr (target_noIf ht)) n rest hn

theorem prev_block (n : Nat) (rest : List RTok) (hn : 4 ≤ n) :
    rBlock n (.id c!"prev" :: .punct c!"}" :: rest) = some (.name [.id c!"prev"], rest) := by
  obtain ⟨m, rfl⟩ : ∃ m, n = m + 1 := ⟨n - 1, by omega⟩
  have hh : PlainHead (.id c!"prev" :: .punct c!"}" :: rest) := plainHead_id (by decide) _
  refine rBlock_of hh.2.2 ?_
  rw [rHead_plain hh]
  exact prev_whole m (.punct c!"}" :: rest) ⟨_, _, rfl, by decide⟩ (by omega)

/-- An assignment written as a block. -/
theorem reads_assign {l r : Expr} {op : BinOp} {o : Str} {t u : RExpr} (ho : (op, o) ∈ blockOps) (ht : isTarget l = true)
    (hv : isVolatileDeref l = false) (hl : ReadsBack P l t) (hr : ReadsBack P r u) : ReadsBack P (.bin l op r) (.seq (.bin o t u) t) := by
  have hbl : op.isBlockAssign = true ∧ op.text = o ∧ beginsBlock (.bin l op r) = true := by
    have : ∀ x ∈ blockOps, x.1.isBlockAssign = true ∧ x.1.text = x.2 ∧ (blockOps.map Prod.fst).contains x.1 = true := by decide
    obtain ⟨h1, h2, h3⟩ := this _ ho
    exact ⟨h1, h2, by rw [beginsBlock, h3]; rfl⟩
  refine reads_braces (body := l.toks P ++ .punct o :: (r.toks P ++ .punct c!";" :: l.toks P)) ?_ hbl.2.2 fun n rest hn => ?_
  · rw [Expr.toks, binaryToks, if_pos hbl.1, hv, if_neg (by simp), hbl.2.1]
    simp
  · simp only [List.length_append, List.length_cons] at hn
    obtain ⟨m, rfl⟩ : ∃ m, n = m + 1 := ⟨n - 1, by omega⟩
    simp only [List.append_assoc, List.cons_append]
    exact block_assign hl ht (List.mem_map.2 ⟨_, ho, rfl⟩) (by omega) (fun k hk => hr.whole hk (ender_semi _))
      (target_block hl ht m rest (by omega))

theorem stepOps_block {op : UnOp} {o : Str} (h : (op, o) ∈ stepOps ∨ (op, o) ∈ postOps) (e : Expr) :
    o ∈ blockOps.map Prod.snd ∧ beginsBlock (.un op e) = true := by
  simp only [stepOps, postOps, List.mem_cons, Prod.mk.injEq, List.not_mem_nil, or_false] at h
  rcases h with (⟨rfl, rfl⟩ | ⟨rfl, rfl⟩) | ⟨rfl, rfl⟩ | ⟨rfl, rfl⟩ <;> exact ⟨by decide, rfl⟩

/-- `++x` and `--x`. -/
theorem reads_step {e : Expr} {op : UnOp} {o : Str} {t : RExpr} (ho : (op, o) ∈ stepOps) (ht : isTarget e = true)
    (hv : isVolatileDeref e = false) (h : ReadsBack P e t) : ReadsBack P (.un op e) (.seq (.bin o t (.num 1)) t) := by
  obtain ⟨hb, hbg⟩ := stepOps_block (.inl ho) e
  refine reads_braces (body := e.toks P ++ .punct o :: ([.int 1 []] ++ .punct c!";" :: e.toks P)) ?_ hbg fun n rest hn => ?_
  · simp only [stepOps, List.mem_cons, Prod.mk.injEq, List.not_mem_nil, or_false] at ho
    rcases ho with ⟨rfl, rfl⟩ | ⟨rfl, rfl⟩ <;> simp [Expr.toks, unaryToks, hv]
  · simp only [List.length_append, List.length_cons, List.length_nil] at hn
    obtain ⟨m, rfl⟩ : ∃ m, n = m + 1 := ⟨n - 1, by omega⟩
    rw [List.append_assoc, List.cons_append, List.append_assoc, List.cons_append]
    exact block_assign h ht hb (by simp; omega) (fun k hk => num_whole k _ (ender_semi _) (by simpa using hk))
      (target_block h ht m rest (by omega))

/-- `x++` and `x--`. -/
theorem reads_postStep {e : Expr} {op : UnOp} {o : Str} {t : RExpr} (ho : (op, o) ∈ postOps) (ht : isTarget e = true)
    (hv : isVolatileDeref e = false) (h : ReadsBack P e t) :
    ReadsBack P (.un op e) (.letIn c!"prev" t (.seq (.bin o t (.num 1)) (.name [.id c!"prev"]))) := by
  obtain ⟨hb, hbg⟩ := stepOps_block (.inr ho) e
  refine reads_braces (body := .id c!"let" :: .id c!"prev" :: .punct c!"=" :: (e.toks P ++ .punct c!";" ::
    (e.toks P ++ .punct o :: ([.int 1 []] ++ .punct c!";" :: [.id c!"prev"])))) ?_ hbg fun n rest hn => ?_
  · simp only [postOps, List.mem_cons, Prod.mk.injEq, List.not_mem_nil, or_false] at ho
    rcases ho with ⟨rfl, rfl⟩ | ⟨rfl, rfl⟩ <;> simp [Expr.toks, unaryToks, hv]
  · simp only [List.length_append, List.length_cons, List.length_nil] at hn
    obtain ⟨m, rfl⟩ : ∃ m, n = m + 1 + 1 := ⟨n - 2, by omega⟩
    simp only [List.append_assoc, List.cons_append, List.nil_append]
    refine rBlock_let (by decide) (h.whole (by omega) (ender_semi _)) ?_
    exact block_assign (ts := [.int 1 []]) h ht hb (by simp; omega) (fun k hk => num_whole k _ (ender_semi _) (by simpa using hk))
      (prev_block m rest (by omega))

theorem named_target {p : Expr} (h : isNamed p = true) : isTarget p = true ∧ p.prec ≤ 1 ∧ negLit p = false := by
  unfold isNamed at h
  split at h
  · exact ⟨rfl, by simp [Expr.prec], rfl⟩
  · exact ⟨h, by simp [Expr.prec, BinOp.prec], rfl⟩
  · cases h

/-- `p.add(1)` -/
theorem method_whole {p : Expr} {t : RExpr} {f : Str} (hf : f ∉ rustKeywords) (hn : isNamed p = true) (h : ReadsBack P p t) {rest : List RTok}
    (hr : Ender rest) (n : Nat) (hl : 2 * (p.toks P ++ [.punct c!".", .id f, .punct c!"(", .int 1 [], .punct c!")"] : List RTok).length < n) :
    rExpr n 14 ((p.toks P ++ [.punct c!".", .id f, .punct c!"(", .int 1 [], .punct c!")"]) ++ rest)
      = some (.method t f [.num 1], rest) := by
  obtain ⟨_, h1, h2⟩ := named_target hn
  simp only [List.length_append, List.length_cons, List.length_nil] at hl
  obtain ⟨m, rfl⟩ : ∃ m, n = m + 2 := ⟨n - 2, by omega⟩
  obtain ⟨n', h3, h4⟩ := h.post h1 h2 (m + 1) ([.punct c!".", .id f, .punct c!"(", .int 1 [], .punct c!")"] ++ rest) (by omega)
    (by simp [NoTail])
  obtain ⟨j, rfl⟩ : ∃ j, n' = j + 5 := ⟨n' - 5, by omega⟩
  rw [List.append_assoc, rExpr, h4]
  simp only [List.cons_append, List.nil_append]
  have ha : rArgs (j + 4) (.int 1 [] :: .punct c!")" :: rest) = some ([.num 1], rest) := by
    rw [rArgs, if_neg (by simp), rExpr, rPre_int 1 [] j (follow_close 2 rest)]
    simp only
    rw [rClimb_stop (j + 1) 14 _ (follow_close 14 rest)]
    simp [rInt]
  rw [rPost_method hf, ha]
  simp only [rPost_stop (j + 3) _ (hr.follow 2)]
  exact rClimb_stop m 14 _ (hr.follow 14)

theorem reads_star {e : Expr} {t : RExpr} {body : List RTok} (ht : e.toks P = .punct c!"*" :: .punct c!"{" :: (body ++ [.punct c!"}"]))
    (hi : isBlockLike e = false) (he : e.prec = 2)
    (h : ∀ n rest, 2 * body.length + 2 ≤ n → rBlock n (body ++ .punct c!"}" :: rest) = some (t, rest)) :
    ReadsBack P e (.un c!"*" t) :=
  .of_pre (by simp [ht]) (fun _ => by rw [ht]; exact plainHead_punct (by decide) _) hi (by intro h1; omega) fun n rest hn hf => by
    simp only [ht, List.length_cons, List.length_append, List.length_nil] at hn ⊢
    obtain ⟨m, rfl⟩ : ∃ m, n = m + 1 + 1 + 1 := ⟨n - 3, by omega⟩
    simp only [List.cons_append, List.append_assoc, List.nil_append]
    rw [rPre_op (by decide), rPre_block, h _ rest (by omega)]
    simp only [rPost_stop m _ hf]

/-- `*++p` and `*--p`. -/
theorem reads_derefStep {p : Expr} {op : UnOp} {f : Str} {t : RExpr} (ho : (op, f) ∈ stepNames) (hn : isNamed p = true) (h : ReadsBack P p t) :
    ReadsBack P (.un .deref (.un op p)) (.un c!"*" (.seq (.bin c!"=" t (.method t f [.num 1])) t)) := by
  have hf : f ∉ rustKeywords := (by decide : ∀ x ∈ stepNames, x.2 ∉ rustKeywords) _ ho
  have ht := (named_target hn).1
  refine reads_star (body := p.toks P ++ .punct c!"=" :: ((p.toks P ++ [.punct c!".", .id f, .punct c!"(", .int 1 [], .punct c!")"])
    ++ .punct c!";" :: p.toks P)) ?_ rfl rfl fun n rest hn' => ?_
  · simp only [stepNames, List.mem_cons, Prod.mk.injEq, List.not_mem_nil, or_false] at ho
    rcases ho with ⟨rfl, rfl⟩ | ⟨rfl, rfl⟩ <;> simp [Expr.toks, unaryToks, derefToks, derefStep, Expr.kids, kid0]
  · simp only [List.length_append, List.length_cons, List.length_nil] at hn'
    obtain ⟨m, rfl⟩ : ∃ m, n = m + 1 := ⟨n - 1, by omega⟩
    rw [List.append_assoc, List.cons_append, List.append_assoc, List.cons_append]
    exact block_assign h ht (by decide) (by simp; omega) (fun k hk => method_whole hf hn h (ender_semi _) k hk)
      (target_block h ht m rest (by omega))

/-- `*p++` and `*p--`. -/
theorem reads_derefPostStep {p : Expr} {op : UnOp} {f : Str} {t : RExpr} (ho : (op, f) ∈ postNames) (hn : isNamed p = true) (h : ReadsBack P p t) :
    ReadsBack P (.un .deref (.un op p))
      (.un c!"*" (.letIn c!"prev" t (.seq (.bin c!"=" t (.method t f [.num 1])) (.name [.id c!"prev"])))) := by
  have hf : f ∉ rustKeywords := (by decide : ∀ x ∈ postNames, x.2 ∉ rustKeywords) _ ho
  have ht := (named_target hn).1
  refine reads_star (body := .id c!"let" :: .id c!"prev" :: .punct c!"=" :: (p.toks P ++ .punct c!";" ::
    (p.toks P ++ .punct c!"=" :: ((p.toks P ++ [.punct c!".", .id f, .punct c!"(", .int 1 [], .punct c!")"])
    ++ .punct c!";" :: [.id c!"prev"])))) ?_ rfl rfl fun n rest hn' => ?_
  · simp only [postNames, List.mem_cons, Prod.mk.injEq, List.not_mem_nil, or_false] at ho
    rcases ho with ⟨rfl, rfl⟩ | ⟨rfl, rfl⟩ <;> simp [Expr.toks, unaryToks, derefToks, derefStep, Expr.kids, kid0]
  · simp only [List.length_append, List.length_cons, List.length_nil] at hn'
    obtain ⟨m, rfl⟩ : ∃ m, n = m + 1 + 1 := ⟨n - 2, by omega⟩
    simp only [List.append_assoc, List.cons_append, List.nil_append]
    refine rBlock_let (by decide) (h.whole (by omega) (ender_semi _)) ?_
    have := block_assign (m := m) (us := .id c!"prev" :: .punct c!"}" :: rest) (rest := rest) (o := c!"=") h ht (by decide) (by simp; omega)
      (fun k hk => method_whole hf hn h (ender_semi _) k hk) (prev_block m rest (by omega))
    simpa only [List.append_assoc, List.cons_append, List.nil_append] using this

mutual
theorem rustTree_readsBack : ∀ {e : Expr} {t : RExpr}, RustTree P e t → Separated e → ReadsBack P e t
  | _, _, .plain h1 h2 h3, _ => reads_id h2 rfl (isReserved_varToks h1 h3)
  | _, _, .limit h1 h2, _ => reads_limit h1 h2
  | _, _, .metavar h1 h2 h3, _ => reads_meta rfl (by simp [Expr.toks, varToks, IdentExpr.toks, argToks, h1, h2, h3])
  | _, _, .param h1 h2 h3 h4, _ => reads_id h4 rfl (by simp [Expr.toks, varToks, IdentExpr.toks, argToks, h1, h2, h3])
  | _, _, .int, _ => reads_int _
  | _, _, .float, _ => reads_float _
  | _, _, .un (op := op) ho h, hs => by
    have ih := rustTree_readsBack h (by cases op <;> simp_all [Separated])
    cases op <;> simp only [rustPrefix, Option.some.injEq, reduceCtorEq] at ho <;> subst ho <;>
      exact reads_prefix (by decide) ih rfl rfl (by simp [Expr.toks, unaryToks, UnOp.prec])
  | _, _, .deref hp h, hs => by
    have ih := rustTree_readsBack h (by simp only [Separated] at hs; exact hs.2)
    exact reads_prefix (by decide) ih rfl rfl (by simp [Expr.toks, unaryToks, derefToks_plain hp])
  | _, _, .derefAdd h1 h2, hs => by
    simp only [Separated, negLeft] at hs
    exact reads_method (by decide) (rustTree_readsBack h1 hs.2.2.2.2.1) (rustTree_readsBack h2 hs.2.2.2.2.2) (hs.1 trivial) rfl rfl
      (by simp [Expr.toks, unaryToks, derefToks, Expr.kids, kid0, kid1])
  | _, _, .derefSub h1 h2, hs => by
    simp only [Separated, negLeft] at hs
    exact reads_method (by decide) (rustTree_readsBack h1 hs.2.2.2.2.1) (rustTree_readsBack h2 hs.2.2.2.2.2) (hs.1 trivial) rfl rfl
      (by simp [Expr.toks, unaryToks, derefToks, Expr.kids, kid0, kid1])
  | _, _, .bin ho h1 h2, hs => by
    simp only [Separated] at hs
    exact reads_bin ho (rustTree_readsBack h1 hs.2.2.2.1) (rustTree_readsBack h2 hs.2.2.2.2) hs.1 hs.2.1
  | _, _, .field (e := x) h1 h2 h3 h4, hs => by
    simp only [Separated] at hs
    exact reads_field h3 (rustTree_readsBack h1 hs.2.2.2.1) (hs.2.2.1 trivial) rfl rfl
      (by simp [Expr.toks, binaryToks, BinOp.isBlockAssign, lhsParens, rhsParens, BinOp.prec, Expr.prec, parenIf, BinOp.text,
        isReserved_varToks h2 h4])
  | _, _, .cast h1 h2 hn h3, hs => by
    simp only [Separated] at hs
    exact reads_cast h1 h2 (fun _ => rustTree_readsBack h3 hs) fun i h => absurd h (hn i)
  | _, _, .castInt h1 h2, _ =>
    reads_cast h1 h2 (fun h => absurd rfl (h _)) fun i h => by cases h; rfl
  | _, _, .call h1 h2 h3, hs => by
    simp only [Separated] at hs
    exact reads_call h1 h2 (argTrees_readsArgs h3 hs)
  | _, _, .assign ho ht h1 h2, hs => by
    simp only [Separated] at hs
    exact reads_assign ho ht h1.noVolatile (rustTree_readsBack h1 hs.2.2.2.1) (rustTree_readsBack h2 hs.2.2.2.2)
  | _, _, .step ho ht h, hs => by
    simp only [Separated] at hs
    exact reads_step ho ht h.noVolatile (rustTree_readsBack h hs.2)
  | _, _, .postStep ho ht h, hs => by
    simp only [Separated] at hs
    exact reads_postStep ho ht h.noVolatile (rustTree_readsBack h hs.2)
  | _, _, .derefStep ho hn h, hs => by
    simp only [Separated] at hs
    exact reads_derefStep ho hn (rustTree_readsBack h hs.2.2)
  | _, _, .derefPostStep ho hn h, hs => by
    simp only [Separated] at hs
    exact reads_derefPostStep ho hn (rustTree_readsBack h hs.2.2)
  | _, _, .ternary h1 h2 h3, hs => by
    simp only [Separated] at hs
    exact reads_ternary (rustTree_readsBack h1 hs.2.2.1) (rustTree_readsBack h2 hs.2.2.2.1) (rustTree_readsBack h3 hs.2.2.2.2) hs.1 hs.2.1
theorem argTrees_readsArgs : ∀ {as : List Expr} {ts : List RExpr}, ArgTrees P as ts → SeparatedAll as →
    ReadsArgs (List.zipWith (callArgToks P true) as (Expr.toksL P as)) ts
  | _, _, .nil, _ => .nil
  | _, _, .into h1 h2 h3, hs => by
    simp only [SeparatedAll] at hs
    refine .cons ?_ (argTrees_readsArgs h3 hs.2)
    simp only [callArgToks, argNameToks_nil h1, h2, Bool.false_eq_true, if_false, if_true, List.nil_append]
    exact (rustTree_readsBack h1 hs.1).readsInto
  | _, _, .plain h1 h2 h3, hs => by
    simp only [SeparatedAll] at hs
    refine .cons ?_ (argTrees_readsArgs h3 hs.2)
    simp only [callArgToks, argNameToks_nil h1, h2, if_true, List.nil_append]
    exact (rustTree_readsBack h1 hs.1).readsArg
end

end CMacro
