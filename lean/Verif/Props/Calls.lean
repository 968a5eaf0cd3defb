import Verif.Proofs.Calls
import Verif.Props.Expand

/-!
# Properties C12, C14, C15, C22: calls of function-like macros
-/

namespace CMacro
open Spec (Op Def Table Item Call NoMacro ArityOk)

/-- The parameters are different identifiers (no `...`). -/
def GoodParams (E : Env) (params : List Str) : Prop :=
  params.Nodup ∧ ∀ p ∈ params, nameOf E p = some p

/-- `#define F() 7`, `#define PAIR(a, b) a = b ;`, `#define FIRST(a, b) a`,
`#define LOG(fmt, ...) printf ( fmt , __VA_ARGS__ )`. -/
def callHistory : List Op :=
  [.defineFn c!"F" [] [c!"7"],
   .defineFn c!"PAIR" [c!"a", c!"b"] [c!"a", c!"=", c!"b", c!";", c!"a"],
   .defineFn c!"FIRST" [c!"a", c!"b"] [c!"a"],
   .defineFn c!"LOG" [c!"fmt", c!"..."] [c!"printf", c!"(", c!"fmt", c!",", c!"__VA_ARGS__", c!")"]]

/-! ## C12 -/

/-- **C12**, the full statement: a call with the wrong number of arguments makes expansion fail
with the error that names the macro, its number of parameters and the number of arguments. -/
def C12_statement : Prop :=
  ∀ (E : Env), E.Lawful → ∀ (h : List Op) (f : Str) (params body : List Str),
    Table.run h f = some (.fn params body) → GoodParams E params → c!"__VA_ARGS__" ∉ body →
    ∀ (ts : List Str), PlainInput ts → ∀ (pre call rest : List Item) (args : List (List Item)),
      ts.map (Spec.item (nameOf E)) = pre ++ .name f false :: call → Call args call rest →
      NoMacro (Table.run h) pre → ¬ ArityOk params args →
      Returns (fun k => (MacroSet.run h).expand E k ts)
        (.error (.err (.fnMacroArgument f params.length args.length)))

/-- **C12** is false of the code: with `#define F() 7`, the call `F ( , 1 )` has two arguments
but expands to `7`. -/
theorem C12_false : ¬ C12_statement := by
  intro hs
  have h1 := hs asciiEnv asciiEnv_lawful callHistory c!"F" [] [c!"7"] rfl
    ⟨by simp, by simp⟩ (by decide) [c!"F", c!"(", c!",", c!"1", c!")"] (by decide)
    [] [.other c!"(", .other c!",", .other c!"1", .other c!")"] [] [[], [.other c!"1"]]
    (by decide +kernel) (call_of_check (by decide)) (noMacro_of_check (by decide))
    (by simp [ArityOk])
  have h2 : Returns (fun k => (MacroSet.run callHistory).expand asciiEnv k
      [c!"F", c!"(", c!",", c!"1", c!")"]) (.ok [.lit (.int ⟨7, none⟩)]) :=
    ⟨by simp, 2, by decide +kernel⟩
  have := expand_unique h1 h2
  simp at this

/-- **C12**, what holds: a call with the wrong number of arguments is rejected, except when the
macro has no parameters and the first of the arguments is empty. -/
theorem C12_wrong_count_rejected_partial (E : Env) (L : E.Lawful) (h : List Op) (f : Str)
    (params body : List Str) (hf : Table.run h f = some (.fn params body))
    (hp : GoodParams E params) (hb : c!"__VA_ARGS__" ∉ body)
    (ts : List Str) (hts : PlainInput ts) (pre call rest : List Item) (args : List (List Item))
    (hsplit : ts.map (Spec.item (nameOf E)) = pre ++ .name f false :: call)
    (hcall : Call args call rest) (hpre : NoMacro (Table.run h) pre)
    (har : ¬ ArityOk params args) (hzero : ¬ (params = [] ∧ args.head? = some [])) :
    Returns (fun k => (MacroSet.run h).expand E k ts)
      (.error (.err (.fnMacroArgument f params.length args.length))) :=
  expand_arity_mismatch L (agrees_run h) hf hp.1 hp.2 hb hts hsplit hcall hpre
    (fun hl => har (.inl hl)) (fun h1 h2 => hzero ⟨h1, h2⟩)

/-- **C12**, the converse: the error is never reported falsely.  Whatever the input, if one of
the three calls fails with it then the named macro is defined, takes the reported number of
parameters (comments aside), and the call had a different number of arguments. -/
theorem C12_error_is_true (E : Env) (h : List Op) (f : Str) (r g : Nat)
    (he : (∃ k ts, (MacroSet.run h).expand E k ts = .error (.err (.fnMacroArgument f r g))) ∨
      (∃ k n, (MacroSet.run h).expandVar E k n = .error (.err (.fnMacroArgument f r g))) ∨
      (∃ k n, (MacroSet.run h).expandFn E k n = .error (.err (.fnMacroArgument f r g)))) :
    ∃ params body, Table.run h f = some (.fn params body) ∧
      r = (params.filter fun p => (nameOf E p).isSome).length ∧ g ≠ r := by
  let F : Fail → Prop := fun e => ∀ f r g, e = .err (.fnMacroArgument f r g) →
    ∃ params body, Table.run h f = some (.fn params body) ∧
      r = (params.filter fun p => (nameOf E p).isSome).length ∧ g ≠ r
  have H : StepInv E (MacroSet.run h) (fun _ => True) F := {
    diverge := by intro f r g h; simp at h
    concatBegin := by intro f r g h; simp at h
    concatEnd := by intro f r g h; simp at h
    nonVariadic := by intro f r g h; simp at h
    arity := by
      intro id as b names args hdef hn hv ha f r g hh
      simp only [Fail.err.injEq, ExpansionError.fnMacroArgument.injEq] at hh
      obtain ⟨rfl, rfl, rfl⟩ := hh
      have hag := (agrees_run h id).2
      rw [hdef] at hag
      split at hag
      · rename_i p b' hd
        simp only [Option.some.injEq, Prod.mk.injEq] at hag
        obtain ⟨rfl, rfl⟩ := hag
        refine ⟨_, _, hd, ?_, ?_⟩
        · have := tokenizeArgNamesGo_count _ _ _ hn hv
          simpa using this
        · simp only [arityMismatch, Bool.and_eq_true, decide_eq_true_eq] at ha
          exact Ne.symm ha.1
      · simp at hag
    nonUnique := by intro n f r g h; simp at h
    strNonArg := by intro f r g h; simp at h
    argName := by intro f r g h; simp at h
    paint := fun _ _ => trivial
    concat := by
      intro _ a b _ _ _
      cases hc : a.concat E b with
      | ok c => trivial
      | error e =>
        rintro f r g rfl
        unfold Token.concat concatCore concatPunctLit concatIdentLit concatGeneral at hc
        repeat' split at hc
        all_goals simp at hc
        all_goals (split at hc <;> simp at hc)
    placemarker := trivial
    comma := trivial
    stringify := fun _ _ _ _ _ _ => trivial
    fnBody := fun _ _ _ _ _ _ _ _ => .inr trivial
    varBody := fun _ _ _ _ _ => .inr trivial
    select := by
      intro id as b names args t _ _ _ _ _ _ _
      cases hs : selectArg (names.filter Token.isNotComment) args t with
      | ok a => trivial
      | error e =>
        rintro f r g rfl
        unfold selectArg at hs
        repeat' split at hs
        all_goals simp at hs }
  obtain ⟨h1, h2, h3⟩ := calls_fail H (by intro f r g h; simp at h) (by intro s f r g h; simp at h)
    (by intro f r g h; simp at h)
  rcases he with ⟨k, ts, he⟩ | ⟨k, n, he⟩ | ⟨k, n, he⟩
  · exact h1 k ts _ he f r g rfl
  · exact h2 k n _ he f r g rfl
  · exact h3 k n _ he f r g rfl

/-- `x PAIR ( 1 )`: one argument, two parameters. -/
example : Returns (fun k => (MacroSet.run callHistory).expand asciiEnv k
      [c!"x", c!"PAIR", c!"(", c!"1", c!")"])
    (.error (.err (.fnMacroArgument c!"PAIR" 2 1))) :=
  C12_wrong_count_rejected_partial asciiEnv asciiEnv_lawful callHistory c!"PAIR" [c!"a", c!"b"]
    [c!"a", c!"=", c!"b", c!";", c!"a"] rfl ⟨by decide, by decide +kernel⟩ (by decide) _ (by decide)
    [.name c!"x" false] [.other c!"(", .other c!"1", .other c!")"] [] [[.other c!"1"]]
    (by decide +kernel) (call_of_check (by decide)) (noMacro_of_check (by decide))
    (by simp [ArityOk]) (by simp)

/-- The converse applies to the same call. -/
example : ∃ params body, Table.run callHistory c!"PAIR" = some (.fn params body) ∧
    2 = (params.filter fun p => (nameOf asciiEnv p).isSome).length ∧ 1 ≠ 2 :=
  C12_error_is_true asciiEnv callHistory c!"PAIR" 2 1
    (.inl ⟨2, [c!"x", c!"PAIR", c!"(", c!"1", c!")"], by decide +kernel⟩)

/-! ## C14 -/

/-- **C14**: a call whose arguments, surroundings and macro body mention no macro is replaced by
the body with every parameter replaced, simultaneously, by its argument; everything else stays.
Nothing is assumed about the other macros. -/
theorem C14_call_substitutes (E : Env) (L : E.Lawful) (h : List Op) (f : Str)
    (params body : List Str) (hf : Table.run h f = some (.fn params body))
    (hp : GoodParams E params) (hb : PlainInput body)
    (hbn : ∀ s ∈ body, s ∉ params → ∀ id, nameOf E s = some id → Table.run h id = none)
    (ts : List Str) (hts : PlainInput ts) (pre call rest : List Item) (args : List (List Item))
    (hsplit : ts.map (Spec.item (nameOf E)) = pre ++ .name f false :: call)
    (hcall : Call args call rest) (hpre : NoMacro (Table.run h) pre)
    (hrest : NoMacro (Table.run h) rest) (hargs : ∀ a ∈ args, NoMacro (Table.run h) a)
    (har : ArityOk params args) (toks : List MacroToken)
    (hr : results E (pre ++ Spec.subst (nameOf E) params args none body ++ rest) = some toks) :
    Returns (fun k => (MacroSet.run h).expand E k ts) (.ok toks) :=
  expand_simple_call L (agrees_run h) hf (.inl ⟨rfl, rfl⟩) hp.1
    (fun p hpp => ⟨hp.2 p hpp, by
      rintro rfl
      have := nameOf_fromStr (hp.2 _ hpp)
      rw [fromStr_ellipsis L] at this
      simp at this⟩)
    hb.1 (fun hc => absurd hc hb.2) hbn hts hsplit hcall hpre hrest hargs (fun _ => har)
    (fun hc => by simp at hc) (by simp) hr

/-- **C14** for calls inside calls, calls in bodies and so on: whenever the textbook rules say
what a text expands to, that is what is returned. -/
theorem C14_nested_calls (E : Env) (L : E.Lawful) (h : List Op)
    (hP : Spec.Plain (nameOf E) (Table.run h)) (ts : List Str) (hts : PlainInput ts)
    (out : List Item)
    (hx : Spec.Expands (nameOf E) (Table.run h) [] (ts.map (Spec.item (nameOf E))) out)
    (toks : List MacroToken) (hr : results E out = some toks) :
    Returns (fun k => (MacroSet.run h).expand E k ts) (.ok toks) :=
  expand_of_expands L (agrees_run h) hP hts hx hr

/-- `x PAIR ( b , f ( a , 2 ) ) y`: the second argument contains a comma in parentheses, and the
arguments contain the parameters' names. -/
example : Returns (fun k => (MacroSet.run callHistory).expand asciiEnv k
      [c!"x", c!"PAIR", c!"(", c!"b", c!",", c!"f", c!"(", c!"a", c!",", c!"2", c!")", c!")", c!"y"])
    (.ok [.ident c!"x", .ident c!"b", .punct c!"=", .ident c!"f", .punct c!"(", .ident c!"a",
      .punct c!",", .lit (.int ⟨2, none⟩), .punct c!")", .punct c!";", .ident c!"b",
      .ident c!"y"]) :=
  C14_call_substitutes asciiEnv asciiEnv_lawful callHistory c!"PAIR" [c!"a", c!"b"]
    [c!"a", c!"=", c!"b", c!";", c!"a"] rfl ⟨by decide, by decide +kernel⟩ (by decide)
    (body_of_check (by decide +kernel)) _
    (by decide) [.name c!"x" false]
    [.other c!"(", .name c!"b" false, .other c!",", .name c!"f" false, .other c!"(",
      .name c!"a" false, .other c!",", .other c!"2", .other c!")", .other c!")", .name c!"y" false]
    [.name c!"y" false]
    [[.name c!"b" false], [.name c!"f" false, .other c!"(",
      .name c!"a" false, .other c!",", .other c!"2", .other c!")"]]
    (by decide +kernel)
    (call_of_check (by decide)) (noMacro_of_check (by decide)) (noMacro_of_check (by decide))
    (noMacros_of_check (by decide))
    (.inl rfl) _ (by decide +kernel)

theorem callHistory_plain : Spec.Plain (nameOf asciiEnv) (Table.run callHistory) :=
  plain_of_check (by decide +kernel)

/-- The textbook form applies to calls in arguments: `FIRST ( FIRST ( 1 , 2 ) , 3 )`. -/
example : Returns (fun k => (MacroSet.run callHistory).expand asciiEnv k
      [c!"FIRST", c!"(", c!"FIRST", c!"(", c!"1", c!",", c!"2", c!")", c!",", c!"3", c!")"])
    (.ok [.lit (.int ⟨1, none⟩)]) := by
  refine C14_nested_calls asciiEnv asciiEnv_lawful callHistory callHistory_plain _ (by decide)
    [.other c!"1"] ?_ _ (by decide +kernel)
  rw [show [c!"FIRST", c!"(", c!"FIRST", c!"(", c!"1", c!",", c!"2", c!")", c!",", c!"3", c!")"].map
      (Spec.item (nameOf asciiEnv)) = [.name c!"FIRST" false, .other c!"(", .name c!"FIRST" false,
        .other c!"(", .other c!"1", .other c!",", .other c!"2", .other c!")", .other c!",",
        .other c!"3", .other c!")"] from by decide +kernel]
  refine .call (args := [[.name c!"FIRST" false, .other c!"(", .other c!"1", .other c!",",
      .other c!"2", .other c!")"], [.other c!"3"]]) (args' := [[.other c!"1"], [.other c!"3"]])
    (rest := []) (b := [.other c!"1"]) (out := []) (by simp) rfl (by decide)
    (call_of_check (by decide)) (.inl rfl) ?_ (.other .nil) .nil
  refine .cons ?_ (.cons (.other .nil) .nil)
  exact .call (args := [[.other c!"1"], [.other c!"2"]]) (args' := [[.other c!"1"], [.other c!"2"]])
    (rest := []) (b := [.other c!"1"]) (out := []) (by simp) rfl (by decide)
    (call_of_check (by decide)) (.inl rfl) (.cons (.other .nil) (.cons (.other .nil) .nil))
    (.other .nil) .nil

/-! ## C15 -/

/-- **C15**: the text after a macro name is split in at most one way. -/
theorem C15_split_unique (args args' : List (List Item)) (ts rest rest' : List Item)
    (h : Call args ts rest) (h' : Call args' ts rest') : args = args' ∧ rest = rest' :=
  call_unique h h'

/-- **C15**: `collect_args` finds exactly the argument lists the specification describes: the
pieces of the text between `(` and the matching `)`, separated by the commas outside brackets. -/
theorem C15_collect_args (E : Env) (L : E.Lawful) (ts : List Str) (hts : PlainInput ts)
    (a : List (List Token)) (r : List Token) :
    collectArgs (tokenize E [] ts) = some (a, r) ↔
      ∃ args rest, Call args (ts.map (Spec.item (nameOf E))) rest ∧
        a = args.map (List.map (tokOf E)) ∧ r = rest.map (tokOf E) := by
  rw [tokenize_nil]
  constructor
  · exact collectArgs_inv L hts.ok
  · rintro ⟨args, rest, hc, rfl, rfl⟩
    exact (collectArgs_call L hc hts.ok).2

/-- **C15**, seen from outside: a macro that returns its `i`-th parameter returns the `i`-th
piece, followed by the text after the matching `)`. -/
theorem C15_ith_argument (E : Env) (L : E.Lawful) (h : List Op) (f : Str) (params : List Str)
    (hp : GoodParams E params) (i : Nat) (hi : i < params.length)
    (hf : Table.run h f = some (.fn params [params[i]])) (hplain : Spec.PlainSpelling params[i])
    (ts : List Str) (hts : PlainInput ts) (pre call rest : List Item) (args : List (List Item))
    (hsplit : ts.map (Spec.item (nameOf E)) = pre ++ .name f false :: call)
    (hcall : Call args call rest) (hlen : args.length = params.length)
    (hpre : NoMacro (Table.run h) pre) (hrest : NoMacro (Table.run h) rest)
    (hargs : ∀ a ∈ args, NoMacro (Table.run h) a)
    (toks : List MacroToken)
    (hr : results E (pre ++ args[i] ++ rest) = some toks) :
    Returns (fun k => (MacroSet.run h).expand E k ts) (.ok toks) := by
  refine C14_call_substitutes E L h f params _ hf hp ⟨by simpa using hplain, ?_⟩ ?_ ts hts pre call
    rest args hsplit hcall hpre hrest hargs (.inl hlen) toks ?_
  · simp only [List.mem_singleton]
    intro hc
    have := hp.2 _ (List.getElem_mem hi)
    rw [← hc] at this
    simp [nameOf] at this
  · intro s hs hn
    simp only [List.mem_singleton] at hs
    exact absurd (hs ▸ List.getElem_mem hi) hn
  · rw [← hr]
    simp [Spec.subst, paramIndex_getElem hi hp.1, List.getD_eq_getElem?_getD,
      List.getElem?_eq_getElem (hlen ▸ hi)]

/-- **C15**, seen from outside: the name of a function-like macro that is not followed by an
argument list (not by `(`, or by brackets that do not match) is left alone, and so is the text
after it. -/
theorem C15_no_argument_list (E : Env) (L : E.Lawful) (h : List Op) (f : Str)
    (params body : List Str) (hf : Table.run h f = some (.fn params body))
    (ts : List Str) (hts : PlainInput ts) (pre after : List Item)
    (hsplit : ts.map (Spec.item (nameOf E)) = pre ++ .name f false :: after)
    (hcall : ∀ args rest, ¬ Call args after rest)
    (hpre : NoMacro (Table.run h) pre) (hafter : NoMacro (Table.run h) after)
    (toks : List MacroToken) (hr : results E (pre ++ .name f false :: after) = some toks) :
    Returns (fun k => (MacroSet.run h).expand E k ts) (.ok toks) :=
  expand_no_call L (agrees_run h) hf hts hsplit hcall hpre hafter hr

/-- `( a [ 1 , 2 ] , { ; } ) z`: two arguments, `a [ 1 , 2 ]` and `{ ; }`. -/
def splitExample : List Str :=
  [c!"(", c!"a", c!"[", c!"1", c!",", c!"2", c!"]", c!",", c!"{", c!";", c!"}", c!")", c!"z"]

example : collectArgs (tokenize asciiEnv [] splitExample) = some
    ([[.name c!"a" false, .other c!"[", .other c!"1", .other c!",", .other c!"2", .other c!"]"],
      [.other c!"{", .other c!";", .other c!"}"]].map (List.map (tokOf asciiEnv)),
     [Item.name c!"z" false].map (tokOf asciiEnv)) :=
  (C15_collect_args asciiEnv asciiEnv_lawful splitExample (by decide) _ _).2
    ⟨_, _, by
      rw [show splitExample.map (Spec.item (nameOf asciiEnv)) = [.other c!"(", .name c!"a" false,
        .other c!"[", .other c!"1", .other c!",", .other c!"2", .other c!"]", .other c!",",
        .other c!"{", .other c!";", .other c!"}", .other c!")", .name c!"z" false] from by
          decide +kernel]
      exact call_of_check (by decide), rfl, rfl⟩

/-- `FIRST ( { a , b } , 2 ) z` is `{ a , b } z`. -/
example : Returns (fun k => (MacroSet.run callHistory).expand asciiEnv k
      [c!"FIRST", c!"(", c!"{", c!"a", c!",", c!"b", c!"}", c!",", c!"2", c!")", c!"z"])
    (.ok [.punct c!"{", .ident c!"a", .punct c!",", .ident c!"b", .punct c!"}", .ident c!"z"]) :=
  C15_ith_argument asciiEnv asciiEnv_lawful callHistory c!"FIRST" [c!"a", c!"b"]
    ⟨by decide, by decide +kernel⟩ 0 (by decide) rfl (by decide) _ (by decide) []
    [.other c!"(", .other c!"{", .name c!"a" false, .other c!",", .name c!"b" false, .other c!"}",
      .other c!",", .other c!"2", .other c!")", .name c!"z" false]
    [.name c!"z" false]
    [[.other c!"{", .name c!"a" false, .other c!",", .name c!"b" false, .other c!"}"],
      [.other c!"2"]]
    (by decide +kernel) (call_of_check (by decide)) rfl (noMacro_of_check (by decide))
    (noMacro_of_check (by decide)) (noMacros_of_check (by decide)) _ (by decide +kernel)

/-- `FIRST ( a ] )`: the brackets do not match, so this is not a call. -/
example : Returns (fun k => (MacroSet.run callHistory).expand asciiEnv k
      [c!"FIRST", c!"(", c!"a", c!"]", c!")"])
    (.ok [.ident c!"FIRST", .punct c!"(", .ident c!"a", .punct c!"]", .punct c!")"]) :=
  C15_no_argument_list asciiEnv asciiEnv_lawful callHistory c!"FIRST" [c!"a", c!"b"] [c!"a"] rfl _
    (by decide) [] [.other c!"(", .name c!"a" false, .other c!"]", .other c!")"] (by decide +kernel)
    (fun args rest hc => by
      have := (collectArgs_call asciiEnv_lawful hc (by
        have := PlainInput.ok (E := asciiEnv) (body := [c!"(", c!"a", c!"]", c!")"]) (by decide)
        rwa [show [c!"(", c!"a", c!"]", c!")"].map (Spec.item (nameOf asciiEnv)) =
          [.other c!"(", .name c!"a" false, .other c!"]", .other c!")"] from by
            decide +kernel] at this)).2
      rw [show collectArgs (List.map (tokOf asciiEnv)
        [.other c!"(", .name c!"a" false, .other c!"]", .other c!")"]) = none from by
          decide +kernel] at this
      simp at this)
    (noMacro_of_check (by decide)) (noMacro_of_check (by decide)) _ (by decide +kernel)

/-! ## C22 -/

/-- **C22**: in a call of a variadic macro with at least as many arguments as named parameters,
`__VA_ARGS__` stands for the remaining arguments, commas included (and the named parameters for
theirs, as in C14). -/
theorem C22_variadic_call (E : Env) (L : E.Lawful) (h : List Op) (f : Str)
    (named body : List Str) (hf : Table.run h f = some (.fn (named ++ [c!"..."]) body))
    (hp : GoodParams E named) (hb : ∀ s ∈ body, Spec.PlainSpelling s)
    (hbn : ∀ s ∈ body, s ∉ named → ∀ id, nameOf E s = some id → Table.run h id = none)
    (ts : List Str) (hts : PlainInput ts) (pre call rest : List Item) (args : List (List Item))
    (hsplit : ts.map (Spec.item (nameOf E)) = pre ++ .name f false :: call)
    (hcall : Call args call rest) (hpre : NoMacro (Table.run h) pre)
    (hrest : NoMacro (Table.run h) rest) (hargs : ∀ a ∈ args, NoMacro (Table.run h) a)
    (har : named.length ≤ args.length) (toks : List MacroToken)
    (hr : results E (pre ++ Spec.subst (nameOf E) named args
      (some (Spec.commaJoin (args.drop named.length))) body ++ rest) = some toks) :
    Returns (fun k => (MacroSet.run h).expand E k ts) (.ok toks) :=
  expand_simple_call L (agrees_run h) hf (.inr ⟨rfl, rfl⟩) hp.1
    (fun p hpp => ⟨hp.2 p hpp, by
      rintro rfl
      have := nameOf_fromStr (hp.2 _ hpp)
      rw [fromStr_ellipsis L] at this
      simp at this⟩)
    hb (fun _ => rfl) hbn hts hsplit hcall hpre hrest hargs (fun hc => by simp at hc)
    (fun _ => har) (by simp) hr

/-- `LOG ( s , 1 , 2 ) ;`: `__VA_ARGS__` is `1 , 2`. -/
example : Returns (fun k => (MacroSet.run callHistory).expand asciiEnv k
      [c!"LOG", c!"(", c!"s", c!",", c!"1", c!",", c!"2", c!")", c!";"])
    (.ok [.ident c!"printf", .punct c!"(", .ident c!"s", .punct c!",", .lit (.int ⟨1, none⟩),
      .punct c!",", .lit (.int ⟨2, none⟩), .punct c!")", .punct c!";"]) :=
  C22_variadic_call asciiEnv asciiEnv_lawful callHistory c!"LOG" [c!"fmt"]
    [c!"printf", c!"(", c!"fmt", c!",", c!"__VA_ARGS__", c!")"] rfl
    ⟨by decide, by decide +kernel⟩ (by decide) (body_of_check (by decide +kernel)) _ (by decide) []
    [.other c!"(", .name c!"s" false, .other c!",", .other c!"1", .other c!",", .other c!"2",
      .other c!")", .other c!";"]
    [.other c!";"] [[.name c!"s" false], [.other c!"1"], [.other c!"2"]]
    (by decide +kernel) (call_of_check (by decide)) (noMacro_of_check (by decide))
    (noMacro_of_check (by decide)) (noMacros_of_check (by decide)) (by decide) _
    (by decide +kernel)

end CMacro
