import Verif.Spec.AliasCode
import Verif.Props.Alias
import Verif.Props.FnTotal

/-!
# C112: the code generated for another name of a macro
-/

namespace CMacro
open Spec (Op Def Table Item Expands Uses Word)

theorem argTypes_alias {C : Ctx} {f g : Str} (h : ∀ x, C.macroArgTy g x = C.macroArgTy f x) : ∀ xs, argTypes C g xs = argTypes C f xs
  | [] => rfl
  | x :: xs => by simp only [argTypes, h x, argTypes_alias h xs]

theorem toksOk_named {E : Env} (L : E.Lawful) {f g : Str} (hf : Word E f) (hg : Word E g) {out : GenFn}
    (hn : (∃ ps b, out = .macro f ps b) ∨ ∃ as r b, out = .fn f as r b) : toksOk E (out.named g).toks = toksOk E out.toks := by
  have h1 : isIdentifier E f = true := isIdent_iff.2 hf
  have h2 : isIdentifier E g = true := isIdent_iff.2 hg
  have h3 : isIdentifier E (c!"__cmacro__" ++ f) = true := isIdent_iff.2 (word_prefixed L hf)
  have h4 : isIdentifier E (c!"__cmacro__" ++ g) = true := isIdent_iff.2 (word_prefixed L hg)
  rcases hn with ⟨ps, b, rfl⟩ | ⟨as, r, b, rfl⟩
  · simp only [GenFn.named, GenFn.toks, toksOk, List.all_append, List.all_cons, List.all_nil, RTok.ok, h1, h2, h3, h4]
  · simp only [GenFn.named, GenFn.toks, toksOk, List.all_append, List.all_cons, List.all_nil, RTok.ok, h1, h2]

theorem generate_named {C : Ctx} (L : C.env.Lawful) {f g : Str} (hf : Word C.env f) (hg : Word C.env g)
    (ht : ∀ x, C.macroArgTy g x = C.macroArgTy f x) (hfn : (C.function g).isSome = (C.function f).isSome) (n : Nat) (xs : List Str)
    (body : MacroBody) :
    PipeRes.gen (FnMacro.generate n C ⟨g, xs, body⟩) = (PipeRes.gen (FnMacro.generate n C ⟨f, xs, body⟩)).named g := by
  simp only [FnMacro.generate, argTypes_alias ht xs, hfn]
  cases argTypes C f xs with
  | error e => rfl
  | ok tys =>
    dsimp only
    rcases body.finish C (Expr.finish C (fnLoc xs) n) ⟨tys, false⟩ with ⟨b, st, r⟩
    cases r with
    | error e => rfl
    | ok ret =>
      dsimp only
      cases hx : (st.exportAsMacro || (C.function f).isSome || namesVariadic xs || !st.argTypes.all ArgTy.isKnown || ret.isNone) with
      | true =>
        have := toksOk_named L hf hg (out := .macro f (macroParams xs st.argTypes) (b.toks ⟨C, fnLoc xs, true⟩)) (.inl ⟨_, _, rfl⟩)
        simp only [GenFn.named] at this
        simp only [if_true, this]
        split <;> rfl
      | false =>
        have := toksOk_named L hf hg (out := .fn f (fnParams ⟨C, fnLoc xs, false⟩ xs st.argTypes) (retToks ⟨C, fnLoc xs, false⟩ ret)
          (b.toks ⟨C, fnLoc xs, false⟩)) (.inr ⟨_, _, _, rfl⟩)
        simp only [GenFn.named] at this
        simp only [Bool.false_eq_true, if_false, this]
        split <;> rfl

theorem pipeFn_named {C : Ctx} (L : C.env.Lawful) {h : List Op} {f g : Str} (hf : Word C.env f) (hg : Word C.env g)
    (ht : ∀ x, C.macroArgTy g x = C.macroArgTy f x) (hfn : (C.function g).isSome = (C.function f).isSome)
    (hr : ∃ r, Returns (fun k => (MacroSet.run h).expandFn C.env k f) r ∧ Returns (fun k => (MacroSet.run h).expandFn C.env k g) r) :
    ∃ N, ∀ n ≥ N, pipeFn n C h g = (pipeFn n C h f).named g := by
  obtain ⟨r, ⟨h1, n1, h2⟩, _, n2, h3⟩ := hr
  refine ⟨max n1 n2, fun n hn' => ?_⟩
  have e1 : (MacroSet.run h).expandFn C.env n f = r := by
    rw [← h2]; exact (expandFn_le C.env _ (show n1 ≤ n by omega) f).eq (fun he => h1 (h2.symm.trans he))
  have e2 : (MacroSet.run h).expandFn C.env n g = r := by
    rw [← h3]; exact (expandFn_le C.env _ (show n2 ≤ n by omega) g).eq (fun he => h1 (h3.symm.trans he))
  have i1 : isIdentifier C.env f = true := isIdent_iff.2 hf
  have i2 : isIdentifier C.env g = true := isIdent_iff.2 hg
  simp only [pipeFn, e1, e2]
  cases r with
  | error e => rfl
  | ok q =>
    obtain ⟨as, ts⟩ := q
    simp only [FnMacro.parse, i1, i2, if_true]
    cases FnMacro.parseArgs as with
    | none => rfl
    | some p =>
      obtain ⟨xs, _⟩ := p
      dsimp only
      cases MacroBody.parse C.env ts with
      | none => rfl
      | some q =>
        obtain ⟨body, _⟩ := q
        exact generate_named L hf hg ht hfn n xs body

/-- **C112** for generated code: let `#define f(xs) body` and `#define g(xs) f(xs)`, and let `f` not use `g`.  If the context says about `g`
what it says about `f`, then the same code is generated for `g` as for `f`, except for the name, or the same error is reported. -/
theorem C112_code (C : Ctx) (L : C.env.Lawful) (h : List Op) (hP : Spec.Plain (nameOf C.env) (Table.run h)) (f g : Str) (xs body : List Str)
    (hf : Table.run h f = some (.fn xs body)) (hg : Table.run h g = some (.fn xs (callText f (xs.map fun x => [x]))))
    (hell : c!"..." ∉ xs) (hn : nameOf C.env f = some f) (hx : f ∉ xs) (hne : f ≠ g) (hu : ¬ Uses (nameOf C.env) (Table.run h) f g)
    (hwf : Word C.env f) (hwg : Word C.env g)
    (ht : ∀ x, C.macroArgTy g x = C.macroArgTy f x) (hfn : (C.function g).isSome = (C.function f).isSome)
    (out : List Item) (hout : Expands (nameOf C.env) (Table.run h) [f] (Spec.openBody (nameOf C.env) xs body) out) :
    ∃ N, ∀ n ≥ N, pipeFn n C h g = (pipeFn n C h f).named g :=
  pipeFn_named L hwf hwg ht hfn (C112_fn C.env L h hP f g xs body hf hg hell hn hx hne hu out hout)

/-- The code generated for `BIGGER` is the code generated for `MAX`. -/
example : ∃ N, ∀ n ≥ N, pipeFn n (Ctx.unit asciiEnv) aliasHistory c!"BIGGER" =
    (pipeFn n (Ctx.unit asciiEnv) aliasHistory c!"MAX").named c!"BIGGER" := by
  refine C112_code (Ctx.unit asciiEnv) asciiEnv_lawful aliasHistory aliasHistory_plain c!"MAX" c!"BIGGER" [c!"a", c!"b"] _ rfl rfl (by decide)
    (by decide +kernel) (by decide) (by decide) (aliasHistory_unused (.inr rfl) (by decide)) (word_ascii (by decide +kernel))
    (word_ascii (by decide +kernel)) (fun _ => rfl) rfl
    [.other c!"(", .other c!"a", .other c!">", .other c!"b", .other c!"?", .other c!"a", .other c!":", .other c!"b", .other c!")"] ?_
  have e : Spec.openBody (nameOf asciiEnv) [c!"a", c!"b"] [c!"(", c!"a", c!">", c!"b", c!"?", c!"a", c!":", c!"b", c!")"] =
    [.other c!"(", .other c!"a", .other c!">", .other c!"b", .other c!"?", .other c!"a", .other c!":", .other c!"b", .other c!")"] := by
    decide +kernel
  exact e ▸ .other (.other (.other (.other (.other (.other (.other (.other (.other .nil))))))))

/-- It is generated. -/
example : (match pipeFn 40 (Ctx.unit asciiEnv) aliasHistory c!"BIGGER" with
    | .gen (.ok (.macro n _ _)) => decide (n = c!"BIGGER")
    | _ => false) = true := by decide +kernel

/-- **C112** for the code of variadic macros: `#define f(xs, ...) body` and `#define g(xs, ...) f(xs, __VA_ARGS__)`. -/
theorem C112_code_variadic (C : Ctx) (L : C.env.Lawful) (h : List Op) (hP : Spec.Plain (nameOf C.env) (Table.run h)) (f g : Str)
    (xs body : List Str) (hf : Table.run h f = some (.fn (xs ++ [c!"..."]) body))
    (hg : Table.run h g = some (.fn (xs ++ [c!"..."]) (callText f ((xs ++ [c!"__VA_ARGS__"]).map fun x => [x]))))
    (hell : c!"..." ∉ xs) (hn : nameOf C.env f = some f) (hx : f ∉ xs) (hne : f ≠ g) (hu : ¬ Uses (nameOf C.env) (Table.run h) f g)
    (hwf : Word C.env f) (hwg : Word C.env g)
    (ht : ∀ x, C.macroArgTy g x = C.macroArgTy f x) (hfn : (C.function g).isSome = (C.function f).isSome)
    (out : List Item) (hout : Expands (nameOf C.env) (Table.run h) [f] (Spec.openBody (nameOf C.env) xs body) out) :
    ∃ N, ∀ n ≥ N, pipeFn n C h g = (pipeFn n C h f).named g :=
  pipeFn_named L hwf hwg ht hfn (C112_variadic C.env L h hP f g xs body hf hg hell hn hx hne hu out hout)

/-- The code generated for `LOG` is the code generated for `REPORT`. -/
example : ∃ N, ∀ n ≥ N, pipeFn n (Ctx.unit asciiEnv) logHistory c!"LOG" = (pipeFn n (Ctx.unit asciiEnv) logHistory c!"REPORT").named c!"LOG" := by
  refine C112_code_variadic (Ctx.unit asciiEnv) asciiEnv_lawful logHistory (plain_of_check (by decide +kernel)) c!"REPORT" c!"LOG"
    [c!"to"] _ rfl rfl (by decide) (by decide +kernel) (by decide) (by decide) ?_ (word_ascii (by decide +kernel)) (word_ascii (by decide +kernel))
    (fun _ => rfl) rfl
    [.name c!"write" false, .other c!"(", .other c!"to", .other c!",", .other c!"1", .other c!",", .other c!"__VA_ARGS__", .other c!")"] ?_
  · intro h
    refine uses_within (T := fun y => y ≠ c!"LOG") ?_ h (by decide) rfl
    intro x d w y _ hd hw hy
    have key : ∀ o ∈ logHistory, ∀ w ∈ Op.body o, nameOf asciiEnv w ≠ some c!"LOG" := by decide +kernel
    rintro rfl
    rcases run_mem hd with ⟨b, h1, h2⟩ | ⟨p, b, h1, h2⟩
    all_goals
      subst h1
      exact key _ h2 w hw hy
  · rw [show Spec.openBody (nameOf (Ctx.unit asciiEnv).env) [c!"to"] [c!"write", c!"(", c!"to", c!",", c!"1", c!",", c!"__VA_ARGS__", c!")"] =
      [.name c!"write" false, .other c!"(", .other c!"to", .other c!",", .other c!"1", .other c!",", .other c!"__VA_ARGS__", .other c!")"] from
      by decide +kernel]
    exact .undefined (by decide) rfl (.other (.other (.other (.other (.other (.other (.other .nil)))))))

end CMacro
