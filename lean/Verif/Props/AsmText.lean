import Verif.Proofs.AsmRead
import Verif.Model.Print

/-!
# C77, C78 and C79: inline assembly

C77: the text of an `asm` is read as it is meant.  C78: the operands of the generated `asm!` are those of the `asm`.  C79: the
generated `asm!` promises nothing that is not true of the `asm`.
-/

namespace CMacro
open Parser Spec

/-! ## C77 -/

/-- **C77**: a macro whose body is an `asm` is read as this `asm`, or not at all; and it is read if all operands can be in
registers. -/
def C77_statement : Prop :=
  ∀ (E : Env), E.Lawful → ∀ (name : Str) (as : List MacroToken) (xs : List Str) (r : List MacroToken) (qs : List Str) (n : Nat) (b : Bool)
    (ts : List MacroToken) (c : CAsm) (ps : List Piece), isIdentifier E name = true → FnMacro.parseArgs as = some (xs, r) →
    AsmText qs n ts c → CTemplate c.template ps → (∀ n, .operand n ∈ ps → n < 2 ^ 64) →
    (∀ m, FnMacro.parse E name as (ts ++ semi b) = .ok m → ∃ a, m = ⟨name, xs, .stmt (.asm a)⟩ ∧ AsmRead c ps a) ∧
    (InRegisters c → ∃ m, FnMacro.parse E name as (ts ++ semi b) = .ok m)

theorem asm_body (E : Env) {ts : List MacroToken} {a : Asm} {b : Bool} (h : ∀ r, parseAsm E (ts ++ r) = some (a, r))
    (hp : ∃ w u, ts = .ident w :: u) (he : b = true ∨ ∀ e, parseExpr E ts ≠ some (e, [])) :
    MacroBody.parse E (ts ++ semi b) = some (.stmt (.asm a), []) := by
  obtain ⟨w, u, rfl⟩ := hp
  have hpl : PlainStart (.ident w :: u ++ semi b) := by intro _ _ h; cases h
  have h1 : (allConsuming (map (parseExpr E) MacroBody.expr)) (.ident w :: u ++ semi b) = none := by
    simp only [allConsuming, map]
    cases hx : parseExpr E (.ident w :: u ++ semi b) with
    | none => rfl
    | some x =>
      obtain ⟨e, r⟩ := x
      cases r with
      | cons _ _ => rfl
      | nil =>
        exfalso
        cases b with
        | true =>
          obtain ⟨c, hc, hall⟩ := passes_expr E _ _ _ hx
          rw [List.append_nil] at hc
          exact (hall (.punct c!";") (by rw [← hc]; simp [semi])).1 rfl
        | false =>
          rcases he with h | h
          · cases h
          · exact h e (by simpa [semi] using hx)
  have hsemi : semicolonOrEof (semi b) = some ((), []) := by cases b <;> rfl
  have h2 : parseSingle E ((.ident w :: u ++ semi b).length + 1) (.ident w :: u ++ semi b) = some (.asm a, []) := by
    rw [single_eq, Parser.or]
    have : map (terminated (parseAsm E) semicolonOrEof) Stmt.asm (.ident w :: u ++ semi b) = some (.asm a, []) := by
      simp only [map, terminated, seq, h, hsemi]
    rw [this]
  have h3 : parseStmt E (.ident w :: u ++ semi b) = some (.asm a, []) := by
    have hs := (eats_meta.delimited (eats_single E ((.ident w :: u ++ semi b).length + 1)) eats_meta).shrinks
    have p1 : delimited «meta» (parseSingle E ((.ident w :: u ++ semi b).length + 1)) «meta» (.ident w :: u ++ semi b) = some (.asm a, []) := by
      simp only [delimited, terminated, preceded, map, seq, meta_none hpl, h2, meta_none noComment_nil]
    have p2 : delimited «meta» (parseSingle E ((.ident w :: u ++ semi b).length + 1)) «meta» [] = none := by
      simp only [delimited, terminated, preceded, map, seq, meta_none noComment_nil, single_nil]
    simp only [parseStmt, map, many0_some hs p1 (by simp) (many0_none p2)]
  unfold MacroBody.parse
  rw [meta_none hpl]
  simp only [List.cons_append] at h1 h3 ⊢
  have h4 : (allConsuming (map (parseStmt E) MacroBody.stmt)) (.ident w :: (u ++ semi b)) = some (.stmt (.asm a), []) := by
    simp only [allConsuming, map, h3]
  simp only [Parser.or, h1, h4]

/-- **C77**, partial: an `asm` with at most one qualifier, `volatile` or `inline`, whose template contains no braces and no `%%`, and
whose operands can all be in registers.  There has to be a qualifier, a colon or a semicolon at the end.  Missing: other qualifiers,
`asm("…")` without semicolon, and constraints that allow no register, where it is false. -/
theorem C77_partial (E : Env) (name : Str) (as : List MacroToken) (xs : List Str) (r : List MacroToken) (qs : List Str) (n : Nat) (b : Bool)
    (ts : List MacroToken) (c : CAsm) (ps : List Piece) (hn : isIdentifier E name = true) (ha : FnMacro.parseArgs as = some (xs, r))
    (h : AsmText qs n ts c) (ht : CTemplate c.template ps) (ho : ∀ n, .operand n ∈ ps → n < 2 ^ 64)
    (hb : '{' ∉ c.template ∧ '}' ∉ c.template) (hp : ∀ a b, c.template ≠ a ++ '%' :: '%' :: b) (hr : InRegisters c)
    (hq : qs = [] ∨ qs = [c!"volatile"] ∨ qs = [c!"inline"]) (hx : b = true ∨ qs ≠ [] ∨ n ≠ 0) :
    ∃ a, FnMacro.parse E name as (ts ++ semi b) = .ok ⟨name, xs, .stmt (.asm a)⟩ ∧ AsmRead c ps a := by
  obtain ⟨ls, pss, h1, h2, h3⟩ := C44_templates_partial c.template ps ht ho hb hp
  obtain ⟨a, rfl, h4, h5, h6, hread⟩ := asm_reads E h hq hr h1
  refine ⟨a, ?_, ⟨pss, h2, h3⟩, h4, h5, h6⟩
  have := asm_body E (b := b) hread (by cases h; exact ⟨_, _, rfl⟩) (hx.imp_right fun hx => asm_not_expr E h hq hx)
  simp only [FnMacro.parse, hn, if_true, ha, this]

/-- A string literal. -/
def strTok (s : Str) : MacroToken := .lit (.string (.ordinary (s.flatMap String.utf8EncodeChar)))

/-- `#define ADD(x, y) __asm__ volatile ("add %1," " %0" : "=r"(x) : "ri"(y + 1), "0"(x) : "cc")`. -/
def addText : List MacroToken :=
  [.ident c!"__asm__", .ident c!"volatile", .punct c!"(", strTok c!"add %1,", strTok c!" %0", .punct c!":", strTok c!"=r", .punct c!"(", .arg 0, .punct c!")",
    .punct c!":", strTok c!"ri", .punct c!"(", .arg 1, .punct c!"+", .lit (.int ⟨1, none⟩), .punct c!")", .punct c!",", strTok c!"0", .punct c!"(", .arg 0,
    .punct c!")", .punct c!":", strTok c!"cc", .punct c!")"]

/-- What this text means in C. -/
def addAsm : CAsm :=
  ⟨c!"add %1, %0", [(false, c!"r", .var (.arg 0))], [(c!"ri", .bin (.var (.arg 1)) .add (.lit (.int ⟨1, none⟩))), (c!"0", .var (.arg 0))], [c!"cc"]⟩

theorem add_text : AsmText [c!"volatile"] 3 addText addAsm := by
  have g0 : Gram 12 [.arg 0] (.var (.arg 0)) := (Gram.name .arg).ups (by omega) (by omega)
  have g1 : Gram 12 [.arg 1, .punct c!"+", .lit (.int ⟨1, none⟩)] (.bin (.var (.arg 1)) .add (.lit (.int ⟨1, none⟩))) :=
    (Gram.bin (ℓ := 3) (ts := [.arg 1]) (by decide) ((Gram.name .arg).ups (by omega) (by omega)) (Gram.lit.ups (by omega) (by omega))).ups
      (by omega) (by omega)
  exact .mk (qs := [c!"volatile"]) (us := [strTok c!"add %1,", strTok c!" %0"]) (s := c!"add %1, %0") (by decide) (by decide)
    (.more (s := c!"add %1,") (.one (s := c!" %0")))
    (.clobbers (ts := [strTok c!"=r", .punct c!"(", .arg 0, .punct c!")"])
      (us := [strTok c!"ri", .punct c!"(", .arg 1, .punct c!"+", .lit (.int ⟨1, none⟩), .punct c!")", .punct c!",", strTok c!"0", .punct c!"(", .arg 0, .punct c!")"])
      (vs := [strTok c!"cc"])
      (.one (.mk (us := [strTok c!"=r"]) (b := false) (s := c!"r") (ts := [.arg 0]) .one g0))
      (.more (ts := [strTok c!"ri", .punct c!"(", .arg 1, .punct c!"+", .lit (.int ⟨1, none⟩), .punct c!")"])
        (.mk (us := [strTok c!"ri"]) (ts := [.arg 1, .punct c!"+", .lit (.int ⟨1, none⟩)]) .one g1)
        (.one (.mk (us := [strTok c!"0"]) (ts := [.arg 0]) .one g0)))
      (.one .one))

/-- The hypotheses of `C77_partial` hold of this macro, and what it is read as. -/
example : (∃ ps, CTemplate addAsm.template ps ∧ ∀ n, .operand n ∈ ps → n < 2 ^ 64) ∧ InRegisters addAsm ∧
    FnMacro.parse asciiEnv c!"ADD" [.ident c!"x", .ident c!"y"] addText = .ok ⟨c!"ADD", [c!"x", c!"y"], .stmt (.asm
      ⟨[c!"add {1}, {0}"], [(.out, .reg, .var (.arg 0))],
        [(.reg, .bin (.var (.arg 1)) .add (.lit (.int ⟨1, none⟩))), (.digit 0, .var (.arg 0))], [c!"cc"]⟩)⟩ := by
  refine ⟨⟨_, .text (by decide) (.text (by decide) (.text (by decide) (.text (by decide)
    (.operand (ds := c!"1") (by decide) (by decide) (by decide) (.text (by decide) (.text (by decide)
    (.operand (ds := c!"0") (by decide) (by decide) (by decide) .nil))))))), ?_⟩, ⟨?_, ?_⟩, by kernel_rfl⟩
  · intro n hn
    simp at hn
    rcases hn with rfl | rfl <;> decide
  · intro o ho
    simp only [addAsm, List.mem_singleton] at ho
    subst ho
    exact ⟨by decide, 'r', by decide, by decide⟩
  · intro i hi
    simp only [addAsm, List.mem_cons, List.not_mem_nil, or_false] at hi
    rcases hi with rfl | rfl
    · exact .inl ⟨by decide, 'r', by decide, by decide⟩
    · exact .inr ⟨0, by decide, by decide, rfl⟩

/-- `#define NOP() __asm__("nop")` is read as a call of a function `__asm__`. -/
theorem C77_false : ¬ C77_statement := by
  intro h
  have hp : FnMacro.parse asciiEnv c!"NOP" [] ([.ident c!"__asm__", .punct c!"(", strTok c!"nop", .punct c!")"] ++ semi false) =
      .ok ⟨c!"NOP", [], .expr (.call (.plain c!"__asm__") [.lit (.string (.ordinary [110, 111, 112]))])⟩ := by kernel_rfl
  obtain ⟨a, ha, _⟩ := (h asciiEnv asciiEnv_lawful c!"NOP" [] [] [] [] 0 false [.ident c!"__asm__", .punct c!"(", strTok c!"nop", .punct c!")"]
    ⟨c!"nop", [], [], []⟩ [.char 'n', .char 'o', .char 'p'] (by decide +kernel) (by decide +kernel)
    (.mk (qs := []) (us := [strTok c!"nop"]) (ts := []) (by decide) (by simp) .one .none)
    (.text (by decide) (.text (by decide) (.text (by decide) .nil))) (by simp)).1 _ hp
  cases ha

/-- `#define USE(x) __asm__("" : : "i"(x))` needs a constant, and is read as an operand in a register. -/
theorem C77_false_immediate : ¬ C77_statement := by
  intro h
  have hp : FnMacro.parse asciiEnv c!"USE" [.ident c!"x"]
      ([.ident c!"__asm__", .punct c!"(", strTok [], .punct c!":", .punct c!":", strTok c!"i", .punct c!"(", .arg 0, .punct c!")", .punct c!")"] ++ semi false) =
      .ok ⟨c!"USE", [c!"x"], .stmt (.asm ⟨[[]], [], [(.reg, .var (.arg 0))], []⟩)⟩ := by kernel_rfl
  obtain ⟨a, ha, hr⟩ := (h asciiEnv asciiEnv_lawful c!"USE" [.ident c!"x"] [c!"x"] [] [] 2 false
    [.ident c!"__asm__", .punct c!"(", strTok [], .punct c!":", .punct c!":", strTok c!"i", .punct c!"(", .arg 0, .punct c!")", .punct c!")"]
    ⟨[], [], [(c!"i", .var (.arg 0))], []⟩ [] (by decide +kernel) (by decide +kernel)
    (.mk (qs := []) (us := [strTok []]) (ts := [.punct c!":", .punct c!":", strTok c!"i", .punct c!"(", .arg 0, .punct c!")"]) (by decide) (by simp) .one
      (.ins (ts := []) .none (.one (.mk (us := [strTok c!"i"]) (ts := [.arg 0]) .one ((Gram.name .arg).ups (by omega) (by omega))))))
    .nil (by simp)).1 _ hp
  cases ha
  have := hr.inputs
  generalize hx : [(RegConstraint.reg, Expr.var (.arg 0))] = xs at this
  cases this with
  | cons hi _ =>
    cases hx
    have := hi.1
    generalize hy : RegConstraint.reg = y at this
    cases this <;> first | cases hy | skip
    rename_i h
    revert h
    decide

/-- `__asm__ __volatile__ (…)` is not accepted. -/
theorem C77_false_volatile : ¬ C77_statement := by
  intro h
  have hp : FnMacro.parse asciiEnv c!"BARRIER" []
      ([.ident c!"__asm__", .ident c!"__volatile__", .punct c!"(", strTok [], .punct c!":", .punct c!":", .punct c!":", strTok c!"memory", .punct c!")"] ++ semi false) =
      .error .invalidMacroBody := by kernel_rfl
  obtain ⟨m, hm⟩ := (h asciiEnv asciiEnv_lawful c!"BARRIER" [] [] [] [c!"__volatile__"] 3 false
    [.ident c!"__asm__", .ident c!"__volatile__", .punct c!"(", strTok [], .punct c!":", .punct c!":", .punct c!":", strTok c!"memory", .punct c!")"]
    ⟨[], [], [], [c!"memory"]⟩ [] (by decide +kernel) (by decide +kernel)
    (.mk (qs := [c!"__volatile__"]) (us := [strTok []]) (ts := [.punct c!":", .punct c!":", .punct c!":", strTok c!"memory"]) (by decide) (by decide) .one
      (.clobbers (ts := []) (us := []) .none .none (.one .one)))
    .nil (by simp)).2 ⟨by simp, by simp⟩
  rw [hp] at hm
  cases hm


/-! ## C78 -/

/-- **C78**: the operand `n` of the generated `asm!` is what `%n` is in C. -/
def C78_statement : Prop :=
  ∀ (P : PCtx) (a : Asm), ¬ TopLevel a → (∀ i ∈ a.inputs, ∀ d, i.1 = .digit d → d < a.outputs.length) →
    ∃ ops clob opts, a.toks P = asmText (prefixToks P.C.traitPrefix) a.template ops clob opts ∧
      ∀ n m, Needed a n → cOperand (·.toks P) a n = some m → ∃ op, ops[n]? = some op ∧ op.operand = m

theorem not_global {a : Asm} (h : ¬ TopLevel a) : a.isGlobal = false := by
  cases hg : a.isGlobal with
  | false => rfl
  | true =>
    simp only [Asm.isGlobal, List.any_eq_true, Bool.or_eq_true, List.isPrefixOf_iff_prefix] at hg
    obtain ⟨l, hl, h'⟩ := hg
    exact absurd ⟨l, hl, by rcases h' with (h | h) | h <;> simp [h]⟩ h

/-- The options that are printed. -/
def asmOptions (a : Asm) : List Str :=
  (if a.isAtt then [c!"att_syntax"] else []) ++ ((if c!"memory" ∈ a.clobbers then [] else [c!"nomem"]) ++
    (if c!"cc" ∈ a.clobbers then [] else [c!"preserves_flags"]))

/-- The registers that are printed as clobbered. -/
def asmClobbers (a : Asm) : List Str :=
  (a.clobbers.foldl (fun s x => insertStr x s) []).filter fun s => s ≠ c!"memory" ∧ s ≠ c!"cc"

theorem mem_insertStr (x y : Str) (l : List Str) : y ∈ insertStr x l ↔ y = x ∨ y ∈ l := by
  induction l with
  | nil => simp [insertStr]
  | cons z l ih =>
    unfold insertStr
    split
    · rename_i h
      subst h
      simp
    · split
      · simp
      · simp only [List.mem_cons, ih]
        exact ⟨by rintro (h | h | h) <;> simp [h], by rintro (h | h | h) <;> simp [h]⟩

theorem mem_inserted (y : Str) (l s : List Str) : y ∈ l.foldl (fun s x => insertStr x s) s ↔ y ∈ l ∨ y ∈ s := by
  induction l generalizing s with
  | nil => simp
  | cons x l ih =>
    rw [List.foldl_cons, ih, mem_insertStr, List.mem_cons]
    exact ⟨by rintro (h | h | h) <;> simp [h], by rintro ((h | h) | h) <;> simp [h]⟩

theorem insertStr_sorted (x : Str) (l : List Str) (h : l.Pairwise (· < ·)) : (insertStr x l).Pairwise (· < ·) := by
  induction l with
  | nil => simp [insertStr]
  | cons z l ih =>
    have hz := List.pairwise_cons.1 h
    unfold insertStr
    split
    · exact h
    · rename_i hne
      split
      · rename_i hlt
        refine List.pairwise_cons.2 ⟨fun y hy => ?_, h⟩
        rcases List.mem_cons.1 hy with rfl | hy
        · exact hlt
        · exact List.lt_trans hlt (hz.1 y hy)
      · rename_i hlt
        refine List.pairwise_cons.2 ⟨fun y hy => ?_, ih hz.2⟩
        rcases (mem_insertStr x y l).1 hy with rfl | hy
        · exact Std.lt_of_le_of_ne (Std.not_lt.1 hlt) (Ne.symm hne)
        · exact hz.1 y hy

theorem inserted_nodup (l s : List Str) (h : s.Pairwise (· < ·)) : (l.foldl (fun s x => insertStr x s) s).Nodup := by
  induction l generalizing s with
  | nil => exact h.imp fun h => Std.ne_of_lt h
  | cons x l ih => exact ih _ (insertStr_sorted x s h)

theorem comma_flat {α : Type} (f : α → List RTok) (l : List α) : commaToks (l.map f) = l.flatMap fun a => f a ++ q!"," := by
  simp [commaToks, List.flatMap_map]

theorem out_text (f : Expr → List RTok) (d : Dir) (r : RegConstraint) (e : Expr) :
    d.toks ++ q!"(" ++ r.toks ++ q!")" ++ f e ++ q!"," = (if d = .inOut then ROperand.inout r (f e) else .out r (f e)).text := by
  cases d <;> cases r <;> simp [Dir.toks, RegConstraint.toks, ROperand.text, regName]

theorem in_text (f : Expr → List RTok) (r : RegConstraint) (e : Expr) :
    q!"in (" ++ r.toks ++ q!")" ++ f e ++ q!"," = (ROperand.in r (f e)).text := by
  cases r <;> simp [RegConstraint.toks, ROperand.text, regName]

/-- The text of an `asm!`, after the matching constraints have been resolved. -/
theorem asm_toks (P : PCtx) (a : Asm) (hg : ¬ TopLevel a) {outs ins} (hm : matchConstraints a.inputs a.outputs a.inputs = some (outs, ins)) :
    a.toks P = asmText (prefixToks P.C.traitPrefix) a.template
      (plainOperands (·.toks P) { a with outputs := outs, inputs := ins }) (asmClobbers a) (asmOptions a) := by
  have hmem : ∀ s, (a.clobbers.foldl (fun s x => insertStr x s) []).contains s = decide (s ∈ a.clobbers) := by
    intro s
    rw [Bool.eq_iff_iff]
    simp [mem_inserted]
  have hopts : ∀ (b : Bool) (p q : Prop) [Decidable p] [Decidable q],
      (let os := (if b then [q!"att_syntax"] else []) ++ ((if p then [] else [q!"nomem"]) ++ (if q then [] else [q!"preserves_flags"]));
        if os.isEmpty then [] else q!"options (" ++ sepToks q!"," os ++ q!") ,") =
      optionsText ((if b then [c!"att_syntax"] else []) ++ ((if p then [] else [c!"nomem"]) ++ (if q then [] else [c!"preserves_flags"]))) := by
    intro b p q _ _
    by_cases hp : p <;> by_cases hq : q <;> cases b <;> simp [hp, hq, optionsText, sepToks]
  have h := hopts a.isAtt (c!"memory" ∈ a.clobbers) (c!"cc" ∈ a.clobbers)
  simp only at h
  simp only [Asm.toks, hm, not_global hg, hmem, Bool.false_eq_true, if_false, Bool.false_or, comma_flat, out_text (·.toks P), in_text (·.toks P),
    asmText, plainOperands, asmOptions, asmClobbers, List.flatMap_append, List.flatMap_map, decide_eq_true_eq]
  rw [h]
  simp

/-- No input shares the place of an output. -/
def NoMatching (a : Asm) : Prop := ∀ i ∈ a.inputs, ∀ d, i.1 ≠ .digit d

theorem match_nothing (l : List (RegConstraint × Expr)) (outs ins) (h : ∀ i ∈ l, ∀ d, i.1 ≠ .digit d) :
    matchConstraints l outs ins = some (outs, ins) := by
  induction l with
  | nil => rfl
  | cons i l ih =>
    obtain ⟨r, e⟩ := i
    have hr := h (r, e) (by simp)
    have := ih fun i hi => h i (by simp [hi])
    cases r with
    | digit d => exact absurd rfl (hr d)
    | _ => exact this

theorem sharing_none {a : Asm} (h : NoMatching a) (n : Nat) : sharing n a = none := by
  simp only [sharing, List.findSome?_eq_none_iff]
  intro i hi
  rw [if_neg (h i hi n)]

/-- **C78**, partial: no input shares the place of an output.  Missing: matching constraints, where it is false. -/
theorem C78_partial (P : PCtx) (a : Asm) (hg : ¬ TopLevel a) (hd : NoMatching a) :
    ∃ ops clob opts, a.toks P = asmText (prefixToks P.C.traitPrefix) a.template ops clob opts ∧
      ops.length = a.outputs.length + a.inputs.length ∧
      ∀ n m, cOperand (·.toks P) a n = some m → ∃ op, ops[n]? = some op ∧ op.operand = m := by
  refine ⟨_, _, _, asm_toks P a hg (match_nothing _ _ _ hd), by simp [plainOperands], fun n m hm => ?_⟩
  simp only [cOperand, sharing_none hd] at hm
  split at hm
  · rename_i hn
    obtain ⟨⟨d, r, e⟩, ho⟩ : ∃ o, a.outputs[n] = o := ⟨_, rfl⟩
    have ho' : a.outputs[n]? = some (d, r, e) := by rw [List.getElem?_eq_getElem hn, ho]
    rw [ho'] at hm
    refine ⟨if d = .inOut then .inout r (e.toks P) else .out r (e.toks P), ?_, ?_⟩
    · simp only [plainOperands]
      rw [List.getElem?_append_left (by simpa using hn), List.getElem?_map, ho']
      rfl
    · cases d <;> simpa [ROperand.operand] using hm
  · rename_i hn
    cases hi : a.inputs[n - a.outputs.length]? with
    | none => rw [hi] at hm; cases hm
    | some i =>
      obtain ⟨r, e⟩ := i
      have hr := hd _ (List.mem_of_getElem? hi)
      rw [hi] at hm
      refine ⟨.in r (e.toks P), ?_, ?_⟩
      · simp only [plainOperands]
        rw [List.getElem?_append_right (by simpa using hn), List.length_map, List.getElem?_map, hi]
        rfl
      · cases r with
        | digit d => exact absurd rfl (hr d)
        | _ => simpa [ROperand.operand] using hm

/-- **C78**, partial: one input, the last one, has the number `d` as constraint and is the input number `d`, and has the same
expression as the output `d`.  Then this output becomes an operand that is read too.  Missing: a use of the number of this input
in the template, and all other matching constraints, where it is false. -/
theorem C78_same_partial (P : PCtx) (a : Asm) (d : Nat) (r : RegConstraint) (e : Expr) (pre : List (RegConstraint × Expr)) (hg : ¬ TopLevel a)
    (hi : a.inputs = pre ++ [(.digit d, e)]) (hl : pre.length = d) (hp : ∀ i ∈ pre, ∀ d, i.1 ≠ .digit d) (ho : a.outputs[d]? = some (.out, r, e)) :
    ∃ ops clob opts, a.toks P = asmText (prefixToks P.C.traitPrefix) a.template ops clob opts ∧
      ops.length = a.outputs.length + pre.length ∧
      ∀ n m, n ≠ a.outputs.length + d → cOperand (·.toks P) a n = some m → ∃ op, ops[n]? = some op ∧ op.operand = m := by
  have hdl : d < a.outputs.length := (List.getElem?_eq_some_iff.1 ho).1
  have hm : ∀ ins, matchConstraints (pre ++ [(.digit d, e)]) a.outputs ins =
      matchConstraints [(.digit d, e)] a.outputs ins := by
    intro ins
    clear hi hl
    induction pre with
    | nil => rfl
    | cons i l ih =>
      obtain ⟨r, e⟩ := i
      have hr := hp (r, e) (by simp)
      have := ih fun i hi => hp i (by simp [hi])
      cases r with
      | digit d => exact absurd rfl (hr d)
      | _ => exact this
  have hm' : matchConstraints a.inputs a.outputs a.inputs = some (a.outputs.set d (.inOut, r, e), pre) := by
    rw [hi, hm]
    simp only [matchConstraints, ho]
    rw [if_pos (by simp [hl])]
    subst hl
    simp [List.eraseIdx_append_of_length_le]
  have hs : ∀ n, sharing n a = if n = d then some e else none := by
    intro n
    have : pre.findSome? (fun i => if i.1 = .digit n then some i.2 else none) = none := by
      rw [List.findSome?_eq_none_iff]
      intro i hi
      rw [if_neg (hp i hi n)]
    simp only [sharing, hi, List.findSome?_append, this]
    by_cases h : n = d
    · simp [h]
    · simp [h, Ne.symm h]
  refine ⟨_, _, _, asm_toks P a hg hm', by simp [plainOperands], fun n m hn hc => ?_⟩
  simp only [cOperand, hs] at hc
  split at hc
  · rename_i hlt
    obtain ⟨⟨k, r', e'⟩, ho1⟩ : ∃ o, a.outputs[n] = o := ⟨_, rfl⟩
    have ho' : a.outputs[n]? = some (k, r', e') := by rw [List.getElem?_eq_getElem hlt, ho1]
    rw [ho'] at hc
    by_cases hnd : n = d
    · subst hnd
      rw [ho] at ho'
      cases ho'
      refine ⟨.inout r (e.toks P), ?_, ?_⟩
      · simp only [plainOperands]
        rw [List.getElem?_append_left (by simpa using hlt), List.getElem?_map, List.getElem?_set_self hlt]
        rfl
      · simpa [ROperand.operand] using hc
    · refine ⟨if k = .inOut then .inout r' (e'.toks P) else .out r' (e'.toks P), ?_, ?_⟩
      · simp only [plainOperands]
        rw [List.getElem?_append_left (by simpa using hlt), List.getElem?_map, List.getElem?_set_ne (Ne.symm hnd), ho']
        rfl
      · cases k <;> simpa [ROperand.operand, hnd] using hc
  · rename_i hge
    cases hx : a.inputs[n - a.outputs.length]? with
    | none => rw [hx] at hc; cases hc
    | some i =>
      have hlt : n - a.outputs.length < pre.length := by
        have := (List.getElem?_eq_some_iff.1 hx).1
        rw [hi] at this
        simp at this
        omega
      obtain ⟨r', e'⟩ := i
      have hx' : pre[n - a.outputs.length]? = some (r', e') := by
        rw [hi, List.getElem?_append_left hlt] at hx
        exact hx
      have hr := hp _ (List.mem_of_getElem? hx')
      rw [hx] at hc
      refine ⟨.in r' (e'.toks P), ?_, ?_⟩
      · simp only [plainOperands]
        rw [List.getElem?_append_right (by simpa using hge), List.length_map, List.length_set, List.getElem?_map, hx']
        rfl
      · cases r' with
        | digit d => exact absurd rfl (hr d)
        | _ => simpa [ROperand.operand] using hc

/-- The context of a macro with two parameters. -/
def asmCtx : PCtx := ⟨.unit asciiEnv, fnLoc [c!"a", c!"b"], true⟩

/-- `"mov %1, %0" : "=r"(a) : "r"(b)` -/
def movAsm : Asm := ⟨[c!"mov {1}, {0}"], [(.out, .reg, .var (.arg 0))], [(.reg, .var (.arg 1))], []⟩

theorem not_top {a : Asm} (h : a.isGlobal = false) : ¬ TopLevel a := by
  rintro ⟨l, hl, h'⟩
  simp only [Asm.isGlobal, List.any_eq_false, Bool.or_eq_true, List.isPrefixOf_iff_prefix] at h
  exact h l hl (by rcases h' with h | h | h <;> simp [h])

/-- The hypotheses of `C78_partial` hold of it, and what is generated for it. -/
example : ¬ TopLevel movAsm ∧ NoMatching movAsm ∧
    movAsm.toks asmCtx = q!"arch :: asm ! (" ++ [.str c!"mov {1}, {0}"] ++ q!", out ( reg ) $ a , in ( reg ) $ b , options ( nomem , preserves_flags ) , )" :=
  ⟨not_top (by decide), by simp [NoMatching, movAsm], by decide +kernel⟩

/-- The hypotheses of `C78_same_partial` hold of `"add %1, %0" : "=r"(a), "=r"(b) : "r"(b), "1"(b)`. -/
example : ∃ (a : Asm) (pre : _), ¬ TopLevel a ∧ a.inputs = pre ++ [(.digit 1, .var (.arg 1))] ∧ pre.length = 1 ∧ (∀ i ∈ pre, ∀ d, i.1 ≠ .digit d) ∧
    a.outputs[1]? = some (.out, .reg, .var (.arg 1)) ∧
    cOperand (·.toks asmCtx) a 1 = some ⟨.reg, some q!"$ b", some q!"$ b"⟩ :=
  ⟨⟨[c!"add {1}, {0}"], [(.out, .reg, .var (.arg 0)), (.out, .reg, .var (.arg 1))], [(.reg, .var (.arg 1)), (.digit 1, .var (.arg 1))], []⟩,
    [(.reg, .var (.arg 1))], not_top (by decide), rfl, rfl, by simp, rfl, by rfl⟩

/-- For `"inc %0" : "=r"(a) : "0"(b)` the generated operand is `inout(reg) a`: `b` is never read. -/
theorem C78_false : ¬ C78_statement := by
  intro h
  obtain ⟨ops, clob, opts, _, hops⟩ := h asmCtx ⟨[c!"inc {0}"], [(.out, .reg, .var (.arg 0))], [(.digit 0, .var (.arg 1))], []⟩
    (not_top (by decide)) (by simp)
  obtain ⟨op, _, hop⟩ := hops 0 ⟨.reg, some q!"$ a", some q!"$ b"⟩ (.inl (by decide)) (by rfl)
  cases op with
  | out r e => cases hop
  | «in» r e => cases hop
  | inout r e =>
    simp only [ROperand.operand, Operand.mk.injEq, Option.some.injEq] at hop
    rw [hop.2.1] at hop
    have := hop.2.2
    revert this
    decide

theorem operand_inout {op : ROperand} {r e} (h : op.operand = ⟨r, some e, some e⟩) : op = .inout r e := by
  cases op with
  | out => cases h
  | «in» => cases h
  | inout => cases h; rfl

theorem operand_in {op : ROperand} {r e} (h : op.operand = ⟨r, none, some e⟩) : op = .in r e := by
  cases op with
  | out => cases h
  | «in» => cases h; rfl
  | inout => cases h

/-- For `"add %1, %0" : "=r"(a) : "r"(b), "0"(a)` the wrong input is removed: `b` is never read, and the operand `%1` becomes
`in(0) a`. -/
theorem C78_false_removed : ¬ C78_statement := by
  intro h
  obtain ⟨ops, clob, opts, ht, hops⟩ := h asmCtx
    ⟨[c!"add {1}, {0}"], [(.out, .reg, .var (.arg 0))], [(.reg, .var (.arg 1)), (.digit 0, .var (.arg 0))], []⟩ (not_top (by decide)) (by simp)
  obtain ⟨o, h0, ho⟩ := hops 0 ⟨.reg, some q!"$ a", some q!"$ a"⟩ (.inl (by decide)) (by rfl)
  obtain ⟨i, h1, hi⟩ := hops 1 ⟨.reg, none, some q!"$ b"⟩ (.inr (.inl ⟨_, rfl, by simp⟩)) (by rfl)
  cases operand_inout ho
  cases operand_in hi
  match ops, h0, h1 with
  | x :: y :: ops, h0, h1 =>
    cases h0
    cases h1
    have hl : Asm.toks asmCtx ⟨[c!"add {1}, {0}"], [(.out, .reg, .var (.arg 0))], [(.reg, .var (.arg 1)), (.digit 0, .var (.arg 0))], []⟩ =
        q!"arch :: asm ! (" ++ [.str c!"add {1}, {0}"] ++ q!", inout ( reg ) $ a , in (" ++ [.int 0 []] ++
          q!") $ a , options ( nomem , preserves_flags ) , )" := by decide +kernel
    have hp : prefixToks asmCtx.C.traitPrefix = [] := by decide +kernel
    rw [hl, hp] at ht
    simp [asmText, ROperand.text, regName] at ht

/-- For `"mov %1, %0" : "=r"(a) : "0"(a)` there is no operand `{1}`. -/
theorem C78_false_number : ¬ C78_statement := by
  intro h
  obtain ⟨ops, clob, opts, ht, hops⟩ := h asmCtx
    ⟨[c!"mov {1}, {0}"], [(.out, .reg, .var (.arg 0))], [(.digit 0, .var (.arg 0))], []⟩ (not_top (by decide)) (by simp)
  obtain ⟨o, h0, ho⟩ := hops 0 ⟨.reg, some q!"$ a", some q!"$ a"⟩ (.inl (by decide)) (by rfl)
  obtain ⟨i, h1, hi⟩ := hops 1 ⟨.reg, some q!"$ a", some q!"$ a"⟩ (.inr (.inr ⟨c!"mov {1}, {0}", List.mem_singleton.2 rfl, _,
    .text (by decide) (by decide) (.text (by decide) (by decide) (.text (by decide) (by decide) (.text (by decide) (by decide)
      (.operand (ds := c!"1") (by decide) (by decide) (.text (by decide) (by decide) (.text (by decide) (by decide)
      (.operand (ds := c!"0") (by decide) (by decide) .nil))))))), by simp; decide⟩)) (by rfl)
  cases operand_inout ho
  cases operand_inout hi
  match ops, h0, h1 with
  | x :: y :: ops, h0, h1 =>
    cases h0
    cases h1
    have hl : Asm.toks asmCtx ⟨[c!"mov {1}, {0}"], [(.out, .reg, .var (.arg 0))], [(.digit 0, .var (.arg 0))], []⟩ =
        q!"arch :: asm ! (" ++ [.str c!"mov {1}, {0}"] ++ q!", inout ( reg ) $ a , options ( nomem , preserves_flags ) , )" := by
      decide +kernel
    have hp : prefixToks asmCtx.C.traitPrefix = [] := by decide +kernel
    rw [hl, hp] at ht
    simp [asmText, ROperand.text, regName] at ht

/-! ## C79 -/

/-- **C79**: everything that is clobbered is declared, once; `nomem` is not promised if memory is clobbered; the flags are not
promised to be preserved, since every `asm` may change them on x86; and the instructions are said to be in AT&T syntax, which GCC
uses. -/
def C79_statement : Prop :=
  ∀ (P : PCtx) (a : Asm), ¬ TopLevel a → NoMatching a →
    ∃ clob opts, a.toks P = asmText (prefixToks P.C.traitPrefix) a.template (plainOperands (·.toks P) a) clob opts ∧
      clob.Nodup ∧ (∀ x, x ∈ clob ↔ x ∈ a.clobbers ∧ x ≠ c!"memory" ∧ x ≠ c!"cc") ∧
      (c!"nomem" ∈ opts → c!"memory" ∉ a.clobbers) ∧ c!"preserves_flags" ∉ opts ∧ c!"att_syntax" ∈ opts

theorem contains_iff (p s : Str) : containsStr p s = true ↔ ∃ x y, s = x ++ p ++ y := by
  induction s with
  | nil =>
    simp only [containsStr, List.isEmpty_iff]
    constructor
    · rintro rfl
      exact ⟨[], [], rfl⟩
    · rintro ⟨x, y, h⟩
      simp at h
      exact h.2.1
  | cons c s ih =>
    simp only [containsStr, Bool.or_eq_true, List.isPrefixOf_iff_prefix, ih]
    constructor
    · rintro (⟨y, h⟩ | ⟨x, y, h⟩)
      · exact ⟨[], y, h.symm⟩
      · exact ⟨c :: x, y, by simp [h]⟩
    · rintro ⟨x, y, h⟩
      cases x with
      | nil => exact .inl ⟨y, h.symm⟩
      | cons d x =>
        simp at h
        exact .inr ⟨x, y, by simp [h.2]⟩

/-- **C79**, partial: the flags are promised to be preserved exactly if `"cc"` is not clobbered, and the instructions are said to be
in AT&T syntax exactly if `%`, `$` or `({` occurs in the template.  Missing: the other cases, where it is false. -/
theorem C79_partial (P : PCtx) (a : Asm) (hg : ¬ TopLevel a) (hd : NoMatching a) :
    ∃ clob opts, a.toks P = asmText (prefixToks P.C.traitPrefix) a.template (plainOperands (·.toks P) a) clob opts ∧
      clob.Nodup ∧ (∀ x, x ∈ clob ↔ x ∈ a.clobbers ∧ x ≠ c!"memory" ∧ x ≠ c!"cc") ∧
      opts.Nodup ∧ (∀ o ∈ opts, o ∈ [c!"att_syntax", c!"nomem", c!"preserves_flags"]) ∧
      (c!"nomem" ∈ opts ↔ c!"memory" ∉ a.clobbers) ∧ (c!"preserves_flags" ∈ opts ↔ c!"cc" ∉ a.clobbers) ∧
      (c!"att_syntax" ∈ opts ↔ ∃ l ∈ a.template, '%' ∈ l ∨ '$' ∈ l ∨ ∃ x y, l = x ++ c!"({" ++ y) := by
  have hatt : a.isAtt = true ↔ ∃ l ∈ a.template, '%' ∈ l ∨ '$' ∈ l ∨ ∃ x y, l = x ++ c!"({" ++ y := by
    simp only [Asm.isAtt, List.any_eq_true, Bool.or_eq_true, contains_iff, List.contains_iff_mem]
    constructor
    · rintro ⟨l, hl, (h | h) | h⟩
      · exact ⟨l, hl, .inr (.inr h)⟩
      · exact ⟨l, hl, .inl h⟩
      · exact ⟨l, hl, .inr (.inl h)⟩
    · rintro ⟨l, hl, h | h | h⟩
      · exact ⟨l, hl, .inl (.inr h)⟩
      · exact ⟨l, hl, .inr h⟩
      · exact ⟨l, hl, .inl (.inl h)⟩
  refine ⟨_, _, asm_toks P a hg (match_nothing _ _ _ hd), (inserted_nodup _ _ .nil).filter _, ?_, ?_⟩
  · intro x
    simp [asmClobbers, mem_inserted]
  · rw [← hatt]
    simp only [asmOptions]
    by_cases h1 : c!"memory" ∈ a.clobbers <;> by_cases h2 : c!"cc" ∈ a.clobbers <;> cases a.isAtt <;> simp [h1, h2]

/-- `"add %1, %%eax" : : "r"(a) : "eax", "memory", "eax"`: `eax` is declared once, and `nomem` is not promised. -/
example : Asm.toks asmCtx ⟨[c!"add {0}, %eax"], [], [(.reg, .var (.arg 0))], [c!"eax", c!"memory", c!"eax"]⟩ =
    q!"arch :: asm ! (" ++ [.str c!"add {0}, %eax"] ++ q!", in ( reg ) $ a , out (" ++ [.str c!"eax"] ++ q!") _ , clobber_abi (" ++ [.str c!"C"] ++
      q!") , options ( att_syntax , preserves_flags ) , )" := by decide +kernel

theorem options_inj : ∀ {os ps : List Str}, optionsText os = optionsText ps → os = ps := by
  have tail : ∀ {os ps : List Str}, os.flatMap (fun o => q!"," ++ [.id o]) ++ q!") ," = ps.flatMap (fun o => q!"," ++ [.id o]) ++ q!") ," → os = ps := by
    intro os
    induction os with
    | nil =>
      intro ps h
      cases ps with
      | nil => rfl
      | cons p ps => simp at h
    | cons o os ih =>
      intro ps h
      cases ps with
      | nil => simp at h
      | cons p ps =>
        simp only [List.flatMap_cons, List.cons_append, List.nil_append, List.append_assoc, List.cons.injEq, RTok.id.injEq, true_and] at h
        rw [h.1, ih h.2]
  intro os ps h
  cases os <;> cases ps
  · rfl
  · simp [optionsText] at h
  · simp [optionsText] at h
  · simp only [optionsText, List.cons_append, List.nil_append, List.cons.injEq, RTok.id.injEq, true_and] at h
    rw [h.1, tail h.2]

/-- The options of an `asm!` without clobbered registers can be read off. -/
theorem text_inj {pre ls ops clob os opts} (h : asmText pre ls ops [] os = asmText pre ls ops clob opts) : opts = os := by
  simp only [asmText, List.append_assoc, List.append_cancel_left_eq] at h
  cases clob with
  | nil => exact (options_inj (by simpa using h)).symm
  | cons c cs =>
    cases os <;> simp [optionsText] at h

/-- For `"mov %1, %0" : "=r"(a) : "r"(b)` nothing says that this is AT&T syntax, so that it is taken as Intel syntax, where the
operands are the other way round. -/
theorem C79_false : ¬ C79_statement := by
  intro h
  obtain ⟨clob, opts, ht, _, _, _, _, hatt⟩ := h asmCtx movAsm (not_top (by decide)) (by simp [NoMatching, movAsm])
  have := asm_toks asmCtx movAsm (not_top (by decide)) (by rfl)
  rw [this] at ht
  have hc : asmClobbers movAsm = [] := by rfl
  rw [hc] at ht
  rw [text_inj ht] at hatt
  revert hatt
  decide

/-- For `"add $1, %0" : "+r"(a)` the flags are promised to be preserved, which `add` changes. -/
theorem C79_false_flags : ∃ (a : Asm), ¬ TopLevel a ∧ NoMatching a ∧ a.template = [c!"add $1, {0}"] ∧
    ∀ clob opts, a.toks asmCtx = asmText (prefixToks asmCtx.C.traitPrefix) a.template (plainOperands (·.toks asmCtx) a) clob opts →
      c!"preserves_flags" ∈ opts := by
  refine ⟨⟨[c!"add $1, {0}"], [(.inOut, .reg, .var (.arg 0))], [], []⟩, not_top (by decide), by simp [NoMatching], rfl, fun clob opts ht => ?_⟩
  have := asm_toks asmCtx ⟨[c!"add $1, {0}"], [(.inOut, .reg, .var (.arg 0))], [], []⟩ (not_top (by decide)) (by rfl)
  rw [this] at ht
  have hc : asmClobbers ⟨[c!"add $1, {0}"], [(.inOut, .reg, .var (.arg 0))], [], []⟩ = [] := by rfl
  rw [hc] at ht
  rw [text_inj ht]
  decide

end CMacro
