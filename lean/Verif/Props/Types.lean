import Lean.Elab.Tactic
import Verif.Spec.CTypes
import Verif.Model.ParseStmt
import Verif.Proofs.Terminate

/-!
# Property C47: the order of integer type specifiers

`int_ty` uses nom's `permutation` so that the specifiers may come in any order, but two of the
parts are optional.  An optional part succeeds at once, on nothing, and is then used up.  The
optional sign is tried before the words `long`, `short`, `char` and `int`, so a sign after one
of them is not read as part of the type.
-/

namespace CMacro
open Parser
open Spec (SignFirst SignAlone)

/-- `sizeof ( ws )`. -/
def sizeofBody (ws : List Str) : List MacroToken :=
  .ident c!"sizeof" :: .punct c!"(" :: (ws.map MacroToken.ident ++ [.punct c!")"])

/-- **C47**: the specifiers of an integer type may come in any order. -/
def C47_statement : Prop := ∀ (E : Env), E.Lawful → ∀ (ws : List Str) (t : BuiltInType), Spec.Denotes ws t →
  MacroBody.parse E (sizeofBody ws) = some (.expr (.sizeOf (.builtIn t)), [])

/-! ## All orders -/

/-- The words of the table. -/
def intWords : List Str := [c!"signed", c!"unsigned", c!"short", c!"long", c!"int", c!"char"]

/-- All lists of `n` words. -/
def wordLists : Nat → List (List Str)
  | 0 => [[]]
  | n + 1 => (wordLists n).flatMap fun ws => intWords.map (· :: ws)

theorem mem_wordLists : ∀ (ws : List Str), (∀ w ∈ ws, w ∈ intWords) → ws ∈ wordLists ws.length
  | [], _ => by simp [wordLists]
  | w :: ws, h => by
    simp only [List.length_cons, wordLists, List.mem_flatMap, List.mem_map]
    exact ⟨ws, mem_wordLists ws fun x hx => h x (by simp [hx]), w, h w (by simp), rfl⟩

/-- All orders of the entries of the table. -/
def orders : List (List Str × BuiltInType) :=
  Spec.intTable.flatMap fun (cs, t) => ((wordLists cs.length).filter fun ws => ws.isPerm cs).map (·, t)

theorem mem_orders {ws : List Str} {t : BuiltInType} (h : Spec.Denotes ws t) : (ws, t) ∈ orders := by
  obtain ⟨cs, hc, hp⟩ := h
  simp only [orders, List.mem_flatMap, List.mem_map, List.mem_filter]
  refine ⟨(cs, t), hc, ws, ⟨?_, List.isPerm_iff.2 hp⟩, rfl⟩
  rw [← hp.length_eq]
  refine mem_wordLists ws fun w hw => ?_
  have hall : ∀ x ∈ Spec.intTable, ∀ w ∈ x.1, w ∈ intWords := by decide
  exact hall _ hc w (hp.mem_iff.1 hw)


/-- What `sizeof` of the words is read as: the type, a type of that name, or a call of a function named `sizeof`
whose argument joins variables named by the words. -/
def sizeofRead (ws : List Str) (t : BuiltInType) : Expr :=
  if SignAlone ws then .sizeOf (.ident (.plain ws.flatten) false)
  else if SignFirst ws then .sizeOf (.builtIn t)
  else .call (.plain c!"sizeof") [.concatStr (ws.map fun w => .var (.plain w))]

open Lean Elab Tactic Meta in
/-- `rfl`, checked by the kernel only. -/
elab "kernel_rfl" : tactic => do
  let g ← getMainGoal
  let some (α, a, _) := (← instantiateMVars (← g.getType)).eq? | throwError "not an equation"
  g.assign (mkApp2 (mkConst ``Eq.refl [← getLevel α]) α a)

theorem orders_base (E : Env) (p : Str) (rest : List MacroToken) :
    (orders.filter fun x => SignFirst x.1 ∧ ¬ SignAlone x.1).map
      (fun x => seq (tyBase E) (opt constVolatile) (x.1.map .ident ++ .punct p :: rest)) =
    (orders.filter fun x => SignFirst x.1 ∧ ¬ SignAlone x.1).map
      (fun x => some ((.builtIn x.2, none), .punct p :: rest)) := by
  kernel_rfl

theorem orders_sizeof (E : Env) :
    orders.map (fun x => MacroBody.parse E (sizeofBody x.1)) =
    orders.map (fun x => some (.expr (sizeofRead x.1 x.2), [])) := by
  kernel_rfl

theorem of_map_eq {α β : Type} {f g : α → β} : ∀ {l : List α}, l.map f = l.map g → ∀ x ∈ l, f x = g x
  | [], _, _, hx => by cases hx
  | a :: l, h, x, hx => by
    simp only [List.map_cons, List.cons.injEq] at h
    rcases List.mem_cons.1 hx with rfl | hx
    · exact h.1
    · exact of_map_eq h.2 x hx

/-- A type with its sign in front, before a punctuator. -/
theorem intBase (E : Env) {ws : List Str} {t : BuiltInType} (h : Spec.Denotes ws t)
    (hs : SignFirst ws) (ha : ¬ SignAlone ws) (p : Str) (rest : List MacroToken) :
    seq (tyBase E) (opt constVolatile) (ws.map .ident ++ .punct p :: rest) = some ((.builtIn t, none), .punct p :: rest) :=
  of_map_eq (orders_base E p rest) (ws, t) (List.mem_filter.2 ⟨mem_orders h, by simpa using ⟨hs, ha⟩⟩)

/-! ## The theorems -/

/-- Every order of every integer type, exactly: what `sizeof` of it is read as. -/
theorem C47_exact (E : Env) {ws : List Str} {t : BuiltInType} (h : Spec.Denotes ws t) :
    MacroBody.parse E (sizeofBody ws) = some (.expr (sizeofRead ws t), []) :=
  of_map_eq (orders_sizeof E) (ws, t) (mem_orders h)

/-- **C47** is false of the code: `sizeof(long unsigned int)` is read as a call of a function named `sizeof`, whose
argument joins the variables `long`, `unsigned` and `int`. -/
theorem C47_false : ¬ C47_statement := by
  intro h
  have hd : Spec.Denotes [c!"long", c!"unsigned", c!"int"] .uLong :=
    ⟨[c!"unsigned", c!"long", c!"int"], by decide, by decide⟩
  have h1 := h asciiEnv asciiEnv_lawful _ _ hd
  rw [C47_exact asciiEnv hd] at h1
  simp only [Option.some.injEq, Prod.mk.injEq, and_true, MacroBody.expr.injEq] at h1
  revert h1
  decide

/-- **C47**, for the orders with the sign in front: wherever a type is read up to a closing parenthesis (casts,
`sizeof`), the words are read as the type they denote.  Missing: a sign that is not the first word, and a sign
alone; `C47_exact` says what happens to those. -/
theorem C47_sign_first_partial (E : Env) {ws : List Str} {t : BuiltInType} (h : Spec.Denotes ws t)
    (hs : SignFirst ws) (ha : ¬ SignAlone ws) (rest : List MacroToken) :
    parseTy E (ws.map .ident ++ .punct c!")" :: rest) = some (.builtIn t, .punct c!")" :: rest) := by
  unfold parseTy
  rw [intBase E h hs ha]
  rfl

/-- **C47**, both ways: `sizeof` of the words is `sizeof` of the type they denote exactly when the sign comes first
and is not alone.  Missing as above. -/
theorem C47_iff_partial (E : Env) {ws : List Str} {t : BuiltInType} (h : Spec.Denotes ws t) :
    MacroBody.parse E (sizeofBody ws) = some (.expr (.sizeOf (.builtIn t)), []) ↔ SignFirst ws ∧ ¬ SignAlone ws := by
  rw [C47_exact E h]
  simp only [Option.some.injEq, Prod.mk.injEq, and_true, MacroBody.expr.injEq, sizeofRead]
  by_cases ha : SignAlone ws
  · simp [ha]
  · by_cases hs : SignFirst ws <;> simp [ha, hs]

/-- **C47**: whatever the order, the words are never read as a built-in type other than the one they denote. -/
theorem C47_never_wrong (E : Env) {ws : List Str} {t t' : BuiltInType} (h : Spec.Denotes ws t)
    (hp : MacroBody.parse E (sizeofBody ws) = some (.expr (.sizeOf (.builtIn t')), [])) : t' = t := by
  rw [C47_exact E h] at hp
  simp only [Option.some.injEq, Prod.mk.injEq, and_true, MacroBody.expr.injEq, sizeofRead] at hp
  split at hp
  · simp at hp
  · split at hp
    · simpa using hp.symm
    · simp at hp

/-! ## Examples -/

/-- `(unsigned int long) …`: the sign in front, the other words in another order. -/
example (E : Env) (rest : List MacroToken) :
    parseTy E (.ident c!"unsigned" :: .ident c!"int" :: .ident c!"long" :: .punct c!")" :: rest) =
      some (.builtIn .uLong, .punct c!")" :: rest) :=
  C47_sign_first_partial E (ws := [c!"unsigned", c!"int", c!"long"])
    ⟨[c!"unsigned", c!"long", c!"int"], by decide, by decide⟩ (by decide) (by decide) rest

/-- `sizeof(int long)` is `sizeof` of `long`. -/
example (E : Env) : MacroBody.parse E (sizeofBody [c!"int", c!"long"]) = some (.expr (.sizeOf (.builtIn .long)), []) :=
  (C47_iff_partial E ⟨[c!"long", c!"int"], by decide, by decide⟩).2 (by decide)

/-- `sizeof(unsigned)` is `sizeof` of a type named `unsigned`. -/
example (E : Env) : MacroBody.parse E (sizeofBody [c!"unsigned"]) =
    some (.expr (.sizeOf (.ident (.plain c!"unsigned") false)), []) :=
  C47_exact E (t := .uInt) ⟨[c!"unsigned"], by decide, .refl _⟩

end CMacro
