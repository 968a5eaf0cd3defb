import Verif.Proofs.Cont

/-!
# Properties C48 and C57: nothing of a body is lost, and pasted numbers
-/

namespace CMacro
open Parser
open Spec (Leaf Reads)

/-- The body contains inline assembly, or at least a word that introduces it. -/
def HasAsm (body : List MacroToken) : Prop := ∃ k ∈ Spec.asmWords, .ident k ∈ body

/-- **C48**: the names, parameters and literals of a body that was accepted are all in the result, in order. -/
def C48_statement : Prop := ∀ (E : Env), E.Lawful → ∀ (name : Str) (args body : List MacroToken),
  (∀ m, VarMacro.parse E name body = .ok m → Reads (HasAsm body) body (Spec.bodyLeaves m.body)) ∧
  ∀ m, FnMacro.parse E name args body = .ok m → Reads (HasAsm body) body (Spec.bodyLeaves m.body)

theorem reads_arg_inv {A : Prop} {i : Nat} {ts : List MacroToken} {L : List Leaf} (h : Reads A (.arg i :: ts) L) :
    ∃ ls, L = .arg i :: ls ∧ Reads A ts ls := by
  cases h with
  | arg h => exact ⟨_, rfl, h⟩

theorem reads_punct_inv {A : Prop} {p : Str} {ts : List MacroToken} {L : List Leaf} (h : Reads A (.punct p :: ts) L) : Reads A ts L := by
  cases h with
  | punct h => exact h

theorem reads_cont_inv {A : Prop} {s : Str} {ts : List MacroToken} {L : List Leaf} (h : Reads A (.identCont s :: ts) L) :
    ∃ (pieces : List Str) (ls : List Leaf), s = pieces.flatten ∧ L = pieces.map .name ++ ls ∧ Reads A ts ls := by
  generalize ht : MacroToken.identCont s :: ts = T at h
  cases h with
  | cont h => cases ht; exact ⟨_, _, rfl, rfl, h⟩
  | _ => cases ht

/-- The body `x ## 099999999999999999999999q`. -/
def longPaste : List MacroToken := [.arg 0, .punct c!"##", .identCont c!"099999999999999999999999q"]

theorem longPaste_parse : FnMacro.parse asciiEnv c!"F" [.ident c!"x"] longPaste =
    .ok ⟨c!"F", [c!"x"], .expr (.var (.concat [.arg 0, .int ⟨0, none⟩]))⟩ := by
  have h : parseExpr asciiEnv longPaste = some (.var (.concat [.arg 0, .int ⟨0, none⟩]), []) := by decide +kernel
  have ha : FnMacro.parseArgs [.ident c!"x"] = some ([c!"x"], []) := by decide +kernel
  have hm : «meta» longPaste = some ([], longPaste) := by decide +kernel
  have hb : MacroBody.parse asciiEnv longPaste = some (.expr (.var (.concat [.arg 0, .int ⟨0, none⟩])), []) := by
    unfold MacroBody.parse
    rw [hm]
    simp only [longPaste] at h ⊢
    simp only [Parser.or, allConsuming, Parser.map, h]
  unfold FnMacro.parse
  rw [if_pos (by decide), ha]
  simp only [hb]

/-- The text `x ## 099999999999999999999999q` does become `longPaste`. -/
example : (MacroSet.run [.defineFn c!"F" [c!"x"] [c!"x", c!"##", c!"099999999999999999999999q"]]).expandFn asciiEnv 5 c!"F" =
    .ok ([.ident c!"x"], longPaste) := by decide +kernel

/-- **C48** is false of the code: of `x ## 099999999999999999999999q` only `x ## 0` is left, because the
rest of a continuation that is not understood is dropped (src/ast/identifier_expr.rs:54-72). -/
theorem C48_false : ¬ C48_statement := by
  intro h
  have := (h asciiEnv asciiEnv_lawful c!"F" [.ident c!"x"] longPaste).2 _ longPaste_parse
  obtain ⟨ls, h1, h2⟩ := reads_arg_inv this
  simp only [Spec.bodyLeaves, Spec.exprLeaves, Spec.nameLeaves, List.map_cons, List.map_nil, List.cons.injEq] at h1
  obtain ⟨-, rfl⟩ := h1
  obtain ⟨pieces, ls, h3, h4, -⟩ := reads_cont_inv (reads_punct_inv h2)
  match pieces, h3, h4 with
  | [], h3, _ => simp at h3
  | [p], h3, h4 =>
    simp [Spec.contLeaf] at h3 h4
    rw [← h3] at h4
    exact absurd h4.1 (by decide)
  | p :: q :: ps, _, h4 => simp at h4

/-- **C48**, partial: with continuations of at most 19 ASCII letters, digits and underscores, nothing but
punctuation, comments and keywords is missing from the result.  Missing: longer continuations and ones with
other characters, where it is false (`C48_false`). -/
theorem C48_nothing_lost_partial (E : Env) (hE : E.Lawful) (name : Str) (args body : List MacroToken)
    (hc : ∀ s, .identCont s ∈ body → s.length ≤ 19 ∧ ∀ c ∈ s, c.isAlphanum = true ∨ c = '_') :
    (∀ m, VarMacro.parse E name body = .ok m → Reads (HasAsm body) body (Spec.bodyLeaves m.body)) ∧
    ∀ m, FnMacro.parse E name args body = .ok m → Reads (HasAsm body) body (Spec.bodyLeaves m.body) := by
  have hg : Fair E (HasAsm body) body := ⟨fun k hk hi => ⟨k, hk, hi⟩, fun s hs =>
    splits_word hE (fun x hx => by
      rcases (hc s hs).2 x hx with h | h
      · simp [wordChar, h]
      · simp [wordChar, h]) (hc s hs).1⟩
  have key : ∀ b r, MacroBody.parse E body = some (b, r) → Reads (HasAsm body) body (Spec.bodyLeaves b) := by
    intro b r hb
    obtain ⟨c, e, hr⟩ := keeps_body _ _ _ hg hb
    have := body_rest hb
    subst this
    rw [List.append_nil] at e
    rwa [← e] at hr
  constructor
  · intro m hm
    unfold VarMacro.parse at hm
    split at hm
    · split at hm
      · rename_i hb; cases hm; exact key _ _ hb
      · cases hm
    · cases hm
  · intro m hm
    unfold FnMacro.parse at hm
    split at hm
    · split at hm
      · split at hm
        · rename_i hb; cases hm; exact key _ _ hb
        · cases hm
      · cases hm
    · cases hm

/-- A body with every kind of leaf: `(my_t) f(x ## 12q, 'a') + "hi"`. -/
def richBody : List MacroToken :=
  [.punct c!"(", .ident c!"my_t", .punct c!")", .ident c!"f", .punct c!"(", .arg 0, .punct c!"##", .identCont c!"12q", .punct c!",",
   .lit (.char (.ordinary 97)), .punct c!")", .punct c!"+", .lit (.string (.ordinary [104, 105]))]

example : (parseExpr asciiEnv richBody).map (fun x => x.1) = some (.bin (.cast (.ident (.plain c!"my_t") false)
    (.call (.plain c!"f") [.var (.concat [.arg 0, .int ⟨12, none⟩, .plain c!"q"]), .lit (.char (.ordinary 97))])) .add
    (.lit (.string (.ordinary [104, 105])))) := by decide +kernel

example : ∀ s, .identCont s ∈ richBody → s.length ≤ 19 ∧ ∀ c ∈ s, c.isAlphanum = true ∨ c = '_' := by
  intro s hs
  simp [richBody] at hs
  subst hs
  decide

/-- **C48**: parsing a body stops: any depth of recursion greater than the number of tokens gives the same result. -/
theorem C48_depth_never_matters (E : Env) (body : List MacroToken) (n m : Nat) (hn : body.length < n) (hm : body.length < m) :
    (tie E n).expr body = (tie E m).expr body ∧ parseSingle E n body = parseSingle E m body :=
  ⟨by rw [tie_stable E hn, tie_stable E hm], single_stable E hn hm⟩

/-- The depth does matter below that. -/
example : (tie asciiEnv 1).expr [.punct c!"(", .lit (.int ⟨1, none⟩), .punct c!")"] = none ∧
    (tie asciiEnv 4).expr [.punct c!"(", .lit (.int ⟨1, none⟩), .punct c!")"] = some (.lit (.int ⟨1, none⟩), []) := by
  decide +kernel

/-- **C48**: a body is accepted only as a whole, nothing after an accepted part is ignored. -/
theorem C48_no_truncation (E : Env) (body : List MacroToken) (b : MacroBody) (rest : List MacroToken)
    (h : MacroBody.parse E body = some (b, rest)) : rest = [] := body_rest h

example : parseExpr asciiEnv [.lit (.int ⟨1, none⟩), .punct c!")"] = some (.lit (.int ⟨1, none⟩), [.punct c!")"]) ∧
    (MacroBody.parse asciiEnv [.lit (.int ⟨1, none⟩), .punct c!")"]).isNone = true := by decide +kernel

/-! ## C57: a parameter pasted with a number -/

/-- The macro `name(param)` with the given body, from its definition to its syntax tree. -/
def defineAndParse (E : Env) (name param : Str) (body : List Str) : Option MacroBody :=
  match (MacroSet.run [.defineFn name [param] body]).expandFn E 5 name with
  | .ok (args, body) => match FnMacro.parse E name args body with
    | .ok m => some m.body
    | .error _ => none
  | .error _ => none

/-- **C57**: `x ## 12` is the name made of the parameter and the number. -/
def C57_statement : Prop := ∀ (E : Env), E.Lawful → ∀ (name param : Str), isIdentifier E name = true → isIdentifier E param = true →
  name ≠ param → ∀ n : Nat, n < 2 ^ 64 →
    defineAndParse E name param [param, c!"##", Nat.toDigits 10 n] = some (.expr (.var (.concat [.arg 0, .int ⟨BitVec.ofNat 128 n, none⟩])))

/-- **C57** is false of the code, for the example in the documentation of `parse_concat_ident`
(src/ast/identifier_expr.rs:33): `arg ## 2` is rejected. -/
theorem C57_false : ¬ C57_statement := by
  intro h
  have h1 := h asciiEnv asciiEnv_lawful c!"F" c!"arg" (by decide) (by decide) (by decide) 2 (by decide)
  have h2 : (defineAndParse asciiEnv c!"F" c!"arg" [c!"arg", c!"##", c!"2"]).isNone = true := by decide +kernel
  rw [show Nat.toDigits 10 2 = c!"2" by decide] at h1
  rw [h1] at h2
  cases h2

/-- Expansion makes a number of the text after `##`, and the parser accepts no literal there. -/
theorem C57_literal_rejected (E : Env) (name : Str) (args : List MacroToken) (i : Nat) (l : Lit) (m : FnMacro) :
    FnMacro.parse E name args [.arg i, .punct c!"##", .lit l] ≠ .ok m := by
  have h : MacroBody.parse E [.arg i, .punct c!"##", .lit l] = none := by rfl
  intro hm
  simp only [FnMacro.parse, h] at hm
  repeat' split at hm
  all_goals cases hm

example : (MacroSet.run [.defineFn c!"F" [c!"arg"] [c!"arg", c!"##", c!"2"]]).expandFn asciiEnv 5 c!"F" =
    .ok ([.ident c!"arg"], [.arg 0, .punct c!"##", .lit (.int ⟨2, none⟩)]) := by decide +kernel

/-- **C57**, partial: a parameter pasted with a name or with another parameter.  Missing: with a number, which is
rejected (`C57_false`). -/
theorem C57_paste_name_partial (E : Env) (i j : Nat) (id : Str) :
    MacroBody.parse E [.arg i, .punct c!"##", .ident id] = some (.expr (.var (.concat [.arg i, .plain id])), []) ∧
    MacroBody.parse E [.arg i, .punct c!"##", .arg j] = some (.expr (.var (.concat [.arg i, .arg j])), []) :=
  ⟨by rfl, by rfl⟩

/-- Letters after the number make it acceptable. -/
example : (match defineAndParse asciiEnv c!"F" c!"arg" [c!"arg", c!"##", c!"2a"] with
    | some (.expr e) => decide (e = .var (.concat [.arg 0, .int ⟨2, none⟩, .plain c!"a"]))
    | _ => false) = true := by decide +kernel

end CMacro
