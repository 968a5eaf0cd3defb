import Verif.Proofs.NoPanic
import Verif.Proofs.Generate
import Verif.Props.Params
import Verif.Props.Types
import Verif.Model.Pipeline

/-!
# C27: code generation returns

`VarMacro::generate` and `FnMacro::generate`, called on a macro that was expanded and parsed, return a result
or an error.
-/

namespace CMacro
open Spec

/-- `generate` returned a result or an error, it did not panic or run forever. -/
def Completed {α : Type} (r : CgRes α) : Prop := (∃ x, r = .ok x) ∨ ∃ e, r = .error (.err e)

/-- **C27**: for every macro set, every variable-like or function-like macro of it that expands and parses, and every
context whose answers are made of identifiers, `generate` returns `Ok` or `Err`. -/
def C27_statement : Prop :=
  ∀ (C : Ctx), CalmCtx C → C.env.Lawful → ∀ (h : List Op) (name : Str) (k : Nat),
    (∀ toks m, (MacroSet.run h).expandVar C.env k name = .ok toks → VarMacro.parse C.env name toks = .ok m →
      ∃ r, m.Generates C r ∧ Completed r) ∧
    ∀ as toks m, (MacroSet.run h).expandFn C.env k name = .ok (as, toks) → FnMacro.parse C.env name as toks = .ok m →
      ∃ r, m.Generates C r ∧ Completed r

/-- The context that knows nothing. -/
theorem calmCtx_unit (E : Env) : CalmCtx (Ctx.unit E) where
  ffi := by intro p h; cases h
  trait := by intro p h; cases h
  arg := by intro m a t h; cases h
  variant := by intro v t ts h; cases h
  ty := by intro n t h; cases h
  field := by intro n f t h; cases h
  function := by intro f as r h; cases h

/-- Definitions that make the code generator panic, and definitions that look similar but do not. -/
def generateHistory : List Op :=
  [.defineVar c!"Z" [c!"1", c!"/", c!"0"],
   .defineVar c!"R" [c!"7", c!"%", c!"(", c!"2", c!"-", c!"2", c!")"],
   .defineFn c!"S" [c!"..."] [c!"#", c!"__VA_ARGS__"],
   .defineFn c!"A" [c!"x", c!"y", c!"z"] [c!"__asm__", c!"(", c!"\"\"", c!":", c!"\"=r\"", c!"(", c!"x", c!")", c!",",
     c!"\"=r\"", c!"(", c!"y", c!")", c!":", c!"\"1\"", c!"(", c!"z", c!")", c!")"],
   .defineVar c!"Q" [c!"7", c!"/", c!"2"],
   .defineFn c!"H" [c!"x", c!"y"] [c!"#", c!"x", c!"\" of \"", c!"#", c!"y"],
   .defineFn c!"M" [c!"x", c!"y"] [c!"(", c!"x", c!"+", c!"1", c!")", c!"*", c!"f", c!"(", c!"y", c!",", c!"N", c!")"],
   .defineVar c!"N" [c!"1", c!"<<", c!"4"]]

/-- **C27** is false of the code: `#define Z 1 / 0`. -/
theorem C27_false : ¬ C27_statement := by
  intro h
  obtain ⟨r, hr, hc⟩ := (h (Ctx.unit asciiEnv) (calmCtx_unit _) asciiEnv_lawful generateHistory c!"Z" 5).1
    [.lit (.int ⟨1, none⟩), .punct c!"/", .lit (.int ⟨0, none⟩)]
    ⟨c!"Z", .expr (.bin (.lit (.int ⟨1, none⟩)) .div (.lit (.int ⟨0, none⟩)))⟩ (by decide +kernel) (by kernel_rfl)
  have hp : VarMacro.Generates (Ctx.unit asciiEnv) ⟨c!"Z", .expr (.bin (.lit (.int ⟨1, none⟩)) .div (.lit (.int ⟨0, none⟩)))⟩
      (.error .panic) :=
    varGenerates_of 5 _ _ _ (by decide +kernel)
  rw [hr.unique hp] at hc
  rcases hc with ⟨x, hx⟩ | ⟨e, he⟩
  · cases hx
  · cases he

/-- All ways to panic that remain: a constant division or remainder by zero, `#` before the variadic parameter, a
reference to a parameter behind a comment in the parameter list (C20), and an operand of inline assembly that repeats the
place of an output whose number is not below the number of inputs. -/
theorem C27_panics :
    pipeVar 40 (Ctx.unit asciiEnv) generateHistory c!"Z" = .gen (.error .panic) ∧
    pipeVar 40 (Ctx.unit asciiEnv) generateHistory c!"R" = .gen (.error .panic) ∧
    pipeFn 40 (Ctx.unit asciiEnv) generateHistory c!"S" = .gen (.error .panic) ∧
    pipeFn 40 (Ctx.unit asciiEnv) paramHistory c!"C" = .gen (.error .panic) ∧
    pipeFn 40 (Ctx.unit asciiEnv) generateHistory c!"A" = .gen (.error .panic) := by
  decide +kernel

theorem completed_of {α : Type} {r : CgRes α} (h1 : r ≠ .error .diverge) (h2 : r ≠ .error .panic) : Completed r := by
  rcases r with (e | _ | _) | x
  · exact .inr ⟨e, rfl⟩
  · exact absurd rfl h2
  · exact absurd rfl h1
  · exact .inl ⟨x, rfl⟩

theorem namesOk_params {E : Env} {args : List Str} (h : CalmParams E args) : NamesOk E args := by
  intro s hs
  rcases h with h | ⟨named, rfl, h⟩
  · exact .inr (h s hs)
  · rcases List.mem_append.1 hs with hs | hs
    · exact .inr (h s hs)
    · exact .inl (by simpa using hs)

theorem varParse_inv {E : Env} {name : Str} {toks : List MacroToken} {m : VarMacro} (h : VarMacro.parse E name toks = .ok m) :
    ∃ r, MacroBody.parse E toks = some (m.body, r) := by
  unfold VarMacro.parse at h
  repeat' split at h
  all_goals cases h
  exact ⟨_, by assumption⟩

theorem fnParse_inv {E : Env} {name : Str} {as toks : List MacroToken} {m : FnMacro} (h : FnMacro.parse E name as toks = .ok m) :
    Word E m.name ∧ (∃ r, FnMacro.parseArgs as = some (m.args, r)) ∧ ∃ r, MacroBody.parse E toks = some (m.body, r) := by
  unfold FnMacro.parse at h
  repeat' split at h
  all_goals cases h
  exact ⟨isIdent_iff.1 (by assumption), ⟨_, by assumption⟩, _, by assumption⟩

/-- **C27** for variable-like macros: if no quotient is folded to a division by zero and no operand of inline assembly
is removed that does not exist. -/
theorem C27_var_partial (C : Ctx) (hC : CalmCtx C) (L : C.env.Lawful) (h : List Op) (name : Str) (k : Nat)
    (toks : List MacroToken) (m : VarMacro) (hx : (MacroSet.run h).expandVar C.env k name = .ok toks)
    (hm : VarMacro.parse C.env name toks = .ok m) (hs : SteadyBody [] m.body) :
    ∃ r, m.Generates C r ∧ Completed r := by
  obtain ⟨r, hp⟩ := varParse_inv hm
  let K : Kit := ⟨C.env, 0, True, True, True⟩
  have hb : K.Body m.body := (makes_body (K := K) toks m.body r (by
    intro t ht
    cases t with
    | arg i => exact absurd ht ((C21_no_argument_references C.env h).2 k name toks hx i)
    | ident s => exact ⟨expandVar_word L hx ht, fun _ => trivial⟩
    | punct p => exact ⟨fun _ => trivial, fun _ => trivial⟩
    | _ => trivial) hp).1
  have hc : CalmBody C.env [] m.body := calm_of_kit (K := K) rfl (fun s hs => by cases hs) hb hs
  obtain ⟨r, hr, hd⟩ := VarMacro.generates_total C m
  refine ⟨r, hr, completed_of hd ?_⟩
  rintro rfl
  obtain ⟨N, hN⟩ := hr
  exact calm_generate_var hC L hc N (hN N (Nat.le_refl _))

/-- **C27** for function-like macros, if moreover every parameter the body refers to exists (C20) and `#` does not stand
before the variadic parameter. -/
theorem C27_fn_partial (C : Ctx) (hC : CalmCtx C) (L : C.env.Lawful) (h : List Op) (name : Str) (k : Nat)
    (as toks : List MacroToken) (m : FnMacro) (hx : (MacroSet.run h).expandFn C.env k name = .ok (as, toks))
    (hm : FnMacro.parse C.env name as toks = .ok m) (ha : ∀ i, MacroToken.arg i ∈ toks → i < (realParams as).length)
    (hs : SteadyBody m.args m.body) :
    ∃ r, m.Generates C r ∧ Completed r := by
  obtain ⟨hw, ⟨_, hpa⟩, r, hp⟩ := fnParse_inv hm
  obtain ⟨hword, args, hargs, hcp, hlen⟩ := expandFn_word L hx
  rw [hargs] at hpa
  simp only [Option.some.injEq, Prod.mk.injEq] at hpa
  obtain ⟨rfl, -⟩ := hpa
  let K : Kit := ⟨C.env, m.args.length, True, True, True⟩
  have hb : K.Body m.body := (makes_body (K := K) toks m.body r (by
    intro t ht
    cases t with
    | arg i =>
      have := ha i ht
      rw [← hlen] at this
      exact this
    | ident s => exact ⟨hword s ht, fun _ => trivial⟩
    | punct p => exact ⟨fun _ => trivial, fun _ => trivial⟩
    | _ => trivial) hp).1
  have hc : CalmBody C.env m.args m.body := calm_of_kit (K := K) rfl (namesOk_params hcp) hb hs
  obtain ⟨r, hr, hd⟩ := FnMacro.generates_total C m
  refine ⟨r, hr, completed_of hd ?_⟩
  rintro rfl
  obtain ⟨N, hN⟩ := hr
  exact calm_generate_fn hC L hw hcp hc N (hN N (Nat.le_refl _))

/-- An expansion without `/`, `%`, `#` and inline assembly. -/
def Harmless (toks : List MacroToken) : Prop :=
  MacroToken.punct c!"/" ∉ toks ∧ MacroToken.punct c!"%" ∉ toks ∧ MacroToken.punct c!"#" ∉ toks ∧
    ∀ w ∈ asmWords, MacroToken.ident w ∉ toks

instance (toks : List MacroToken) : Decidable (Harmless toks) := by unfold Harmless; infer_instance

theorem harmless_kit {toks : List MacroToken} (h : Harmless toks) {E : Env} {n : Nat}
    (ha : ∀ i, MacroToken.arg i ∈ toks → i < n) (hw : ∀ s, MacroToken.ident s ∈ toks → Word E s) :
    (⟨E, n, False, False, False⟩ : Kit).Toks toks := by
  obtain ⟨h1, h2, h3, h4⟩ := h
  intro t ht
  cases t with
  | arg i => exact ha i ht
  | ident s => exact ⟨hw s ht, fun hs => h4 s hs ht⟩
  | punct p =>
    refine ⟨?_, ?_⟩
    · rintro (rfl | rfl)
      · exact h1 ht
      · exact h2 ht
    · rintro rfl
      exact h3 ht
  | _ => trivial

/-- **C27** in terms of the expanded tokens: without `/`, `%`, `#` and inline assembly in the expansion, and without comments
in the parameter list, `generate` returns `Ok` or `Err`. -/
theorem C27_harmless_partial (C : Ctx) (hC : CalmCtx C) (L : C.env.Lawful) (h : List Op) (name : Str) (k : Nat) :
    (∀ toks m, (MacroSet.run h).expandVar C.env k name = .ok toks → VarMacro.parse C.env name toks = .ok m →
      Harmless toks → ∃ r, m.Generates C r ∧ Completed r) ∧
    ∀ as toks m, (MacroSet.run h).expandFn C.env k name = .ok (as, toks) → FnMacro.parse C.env name as toks = .ok m →
      Harmless toks → (∀ c, MacroToken.comment c ∉ as) → ∃ r, m.Generates C r ∧ Completed r := by
  constructor
  · intro toks m hx hm hh
    refine C27_var_partial C hC L h name k toks m hx hm ?_
    obtain ⟨r, hp⟩ := varParse_inv hm
    refine steady_of_kit (K := ⟨C.env, 0, False, False, False⟩) id id id (makes_body toks m.body r (harmless_kit hh ?_ ?_) hp).1
    · exact fun i hi => absurd hi ((C21_no_argument_references C.env h).2 k name toks hx i)
    · exact fun s hs => expandVar_word L hx hs
  · intro as toks m hx hm hh hc
    have ha := (C20_references_in_range_partial C.env h name k as toks hx).2 hc
    refine C27_fn_partial C hC L h name k as toks m hx hm ha ?_
    obtain ⟨_, _, r, hp⟩ := fnParse_inv hm
    exact steady_of_kit (K := ⟨C.env, (realParams as).length, False, False, False⟩) id id id
      (makes_body toks m.body r (harmless_kit hh ha (expandFn_word L hx).1) hp).1

/-- `#define Q 7 / 2`. -/
example : ∃ m r, VarMacro.parse asciiEnv c!"Q" [.lit (.int ⟨7, none⟩), .punct c!"/", .lit (.int ⟨2, none⟩)] = .ok m ∧
    m.Generates (Ctx.unit asciiEnv) r ∧ Completed r := by
  have hp : VarMacro.parse asciiEnv c!"Q" [.lit (.int ⟨7, none⟩), .punct c!"/", .lit (.int ⟨2, none⟩)] =
      .ok ⟨c!"Q", .expr (.bin (.lit (.int ⟨7, none⟩)) .div (.lit (.int ⟨2, none⟩)))⟩ := by kernel_rfl
  obtain ⟨r, hr⟩ := C27_var_partial (Ctx.unit asciiEnv) (calmCtx_unit _) asciiEnv_lawful generateHistory c!"Q" 5 _ _
    (by decide +kernel) hp (by
      simp only [SteadyBody, SteadyExpr]
      refine ⟨fun _ => .inr (.inr ⟨_, rfl, ?_⟩), trivial, trivial⟩
      intro n hn
      cases hn
      decide)
  exact ⟨_, r, hp, hr⟩

/-- `#define H(x, y) #x " of " #y`. -/
example : ∃ m r, FnMacro.parse asciiEnv c!"H" [.ident c!"x", .ident c!"y"]
      [.punct c!"#", .arg 0, .lit (.string (.ordinary (utf8EncStr c!" of "))), .punct c!"#", .arg 1] = .ok m ∧
    m.Generates (Ctx.unit asciiEnv) r ∧ Completed r := by
  have hp : FnMacro.parse asciiEnv c!"H" [.ident c!"x", .ident c!"y"]
      [.punct c!"#", .arg 0, .lit (.string (.ordinary (utf8EncStr c!" of "))), .punct c!"#", .arg 1] =
      .ok ⟨c!"H", [c!"x", c!"y"], .expr (.concatStr [.stringify (.arg 0),
        .lit (.string (.ordinary (utf8EncStr c!" of "))), .stringify (.arg 1)])⟩ := by kernel_rfl
  obtain ⟨r, hr⟩ := C27_fn_partial (Ctx.unit asciiEnv) (calmCtx_unit _) asciiEnv_lawful generateHistory c!"H" 5 _ _ _
    (by decide +kernel) hp (by
      intro i hi
      simp only [List.mem_cons, List.not_mem_nil, reduceCtorEq, MacroToken.arg.injEq, or_false, false_or] at hi
      rcases hi with rfl | rfl <;> decide) (by
      simp [SteadyBody, SteadyExpr, SteadyExprs])
  exact ⟨_, r, hp, hr⟩

theorem exists_ok {ε α : Type} {r : Except ε α} (h : r.toOption.isSome = true) : ∃ m, r = .ok m := by
  cases r with
  | ok m => exact ⟨m, rfl⟩
  | error e => cases h

/-- `#define M(x, y) (x + 1) * f(y, N)` with `#define N 1 << 4`. -/
example : ∃ m r, FnMacro.parse asciiEnv c!"M" [.ident c!"x", .ident c!"y"]
      [.punct c!"(", .arg 0, .punct c!"+", .lit (.int ⟨1, none⟩), .punct c!")", .punct c!"*", .ident c!"f", .punct c!"(", .arg 1,
        .punct c!",", .lit (.int ⟨1, none⟩), .punct c!"<<", .lit (.int ⟨4, none⟩), .punct c!")"] = .ok m ∧
    m.Generates (Ctx.unit asciiEnv) r ∧ Completed r := by
  have hp : ∃ m, FnMacro.parse asciiEnv c!"M" [.ident c!"x", .ident c!"y"]
      [.punct c!"(", .arg 0, .punct c!"+", .lit (.int ⟨1, none⟩), .punct c!")", .punct c!"*", .ident c!"f", .punct c!"(", .arg 1,
        .punct c!",", .lit (.int ⟨1, none⟩), .punct c!"<<", .lit (.int ⟨4, none⟩), .punct c!")"] = .ok m :=
    exists_ok (by decide +kernel)
  obtain ⟨m, hp⟩ := hp
  obtain ⟨r, hr⟩ := (C27_harmless_partial (Ctx.unit asciiEnv) (calmCtx_unit _) asciiEnv_lawful generateHistory c!"M" 9).2 _ _ m
    (by decide +kernel) hp (by decide) (by simp)
  exact ⟨m, r, hp, hr⟩

end CMacro
