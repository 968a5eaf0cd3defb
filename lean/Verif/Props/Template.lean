import Verif.Proofs.Template
import Verif.Proofs.NoPanic
import Verif.Props.Rename
import Verif.Model.Pipeline
import Verif.Proofs.Metavar

/-!
# C94: the generated code is a template for the names of the parameters
-/

namespace CMacro

open Spec

/-- For a macro with a given body there is one template: whatever the names of the parameters, generating code fails in the same way or gives the
template with these names put in. -/
theorem C94 (n : Nat) (C : Ctx) (m : Str) (body : MacroBody) (k : Nat) (dots : Nat → Prop) (types : Nat → Option RTy) :
    ∃ T : CgRes GenTemplate, ∀ qs, ParamList C m k dots types qs → FnMacro.generate n C ⟨m, qs, body⟩ = T.map (·.fill qs) := by
  by_cases h : ∃ ps, ParamList C m k dots types ps
  · obtain ⟨ps, hp⟩ := h
    exact template n body hp
  · exact ⟨.error .panic, fun qs hq => absurd ⟨qs, hq⟩ h⟩

/-- The parameter list as it reaches `FnMacro::parse`. -/
theorem expandFn_shape {E : Env} {ms : MacroSet} {n : Nat} {f : Str} {as toks : List MacroToken} (hx : ms.expandFn E n f = .ok (as, toks)) :
    ∃ (xs tail : List MacroToken) (dots : List Str), as = xs ++ tail ∧ IdsAndComments xs ∧
      (tail = [] ∧ dots = [] ∨ (∃ cs, Comments cs ∧ tail = .punct c!"..." :: cs) ∧ dots = [c!"..."]) ∧ ∀ id ∈ idsOf xs, Word E id := by
  unfold MacroSet.expandFn at hx
  repeat' split at hx
  all_goals try (cases hx; done)
  rename_i names hn _ _ _ _ _ _ _ as' ha
  obtain ⟨ts', xs, tail, dots, h1, h2, h3, h4, h5⟩ := tokenizeArgNamesGo_shape _ _ _ hn
  simp only [List.nil_append] at h1
  subst h1
  rw [h2] at ha
  cases ha
  cases hx
  exact ⟨xs, tail, dots, rfl, h3, h4, h5⟩

theorem idsOf_renamed (ρ : Str → Str) : ∀ {xs : List MacroToken}, IdsAndComments xs → idsOf (xs.map (renamedToken ρ)) = (idsOf xs).map ρ
  | [], _ => rfl
  | x :: xs, h => by
    have ih := idsOf_renamed ρ (xs := xs) fun t ht => h t (List.mem_cons_of_mem _ ht)
    rcases h x List.mem_cons_self with ⟨id, rfl⟩ | ⟨c, rfl⟩
    · simpa [idsOf, renamedToken] using ih
    · simpa [idsOf, renamedToken] using ih

theorem idsAndComments_renamed (ρ : Str → Str) {xs : List MacroToken} (h : IdsAndComments xs) : IdsAndComments (xs.map (renamedToken ρ)) := by
  intro t ht
  obtain ⟨x, hx, rfl⟩ := List.mem_map.1 ht
  rcases h x hx with ⟨id, rfl⟩ | ⟨c, rfl⟩
  · exact .inl ⟨_, rfl⟩
  · exact .inr ⟨_, rfl⟩

theorem comments_renamed (ρ : Str → Str) {xs : List MacroToken} (h : Comments xs) : xs.map (renamedToken ρ) = xs := by
  refine (List.map_congr_left fun x hx => ?_).trans (List.map_id' xs)
  obtain ⟨c, rfl⟩ := h x hx
  rfl

/-- The new names are names for the same parameters. -/
theorem renamed_params {C : Ctx} (L : C.env.Lawful) {m : Str} {k : Nat} {dots : Nat → Prop} {types : Nat → Option RTy} {ρ : Str → Str} {ps body qs : List Str}
    (hr : Renames C.env ρ ps body) (hd : ρ c!"..." = c!"...") (ht : ∀ p, C.macroArgTy m (ρ p) = C.macroArgTy m p) (h : ParamList C m k dots types qs) :
    ParamList C m k dots types (qs.map ρ) := by
  refine ⟨by rw [List.length_map, h.length], fun i hi => ?_, fun i q hi hn => ?_, fun i q hi => ?_⟩
  · rw [← h.ellipsis i hi, List.getElem?_map]
    cases hq : qs[i]? with
    | none => simp
    | some q =>
      simp only [Option.map_some, Option.some.injEq]
      refine ⟨fun he => ?_, fun he => by rw [he, hd]⟩
      by_cases hc : ρ q = q
      · rw [← hc, he]
      · have := isIdent_iff.2 (hr.only _ hc).2.2.1
        rw [he, dots_not_ident L] at this
        cases this
  · rw [List.getElem?_map, Option.map_eq_some_iff] at hi
    obtain ⟨p, hp, rfl⟩ := hi
    by_cases hc : ρ p = p
    · rw [hc]
      exact h.ident i p hp hn
    · exact (hr.only _ hc).2.2.1
  · rw [List.getElem?_map, Option.map_eq_some_iff] at hi
    obtain ⟨p, hp, rfl⟩ := hi
    rw [ht, h.declared i p hp]

/-- From the definition to the code: two histories define the same macros up to the names of parameters, and the context declares the same types
for the parameters of `name` under both names.  Then both fail in the same way, or the code for both is the same template, filled with either list of names. -/
theorem C94_macro (C : Ctx) (L : C.env.Lawful) (h h' : List Op) (hs : ∀ n, SameDef C.env (Table.run h n) (Table.run h' n)) (n : Nat)
    (name : Str) (ρ : Str → Str) (ps body : List Str) (hr : Renames C.env ρ ps body) (hd : Table.run h name = some (.fn ps body))
    (hd' : Table.run h' name = some (.fn (ps.map ρ) (body.map ρ))) (ht : ∀ p, C.macroArgTy name (ρ p) = C.macroArgTy name p) :
    (∃ e e', pipeFn n C h name = .expand e ∧ pipeFn n C h' name = .expand e' ∧ Alike (.error e : Res Unit) (.error e')) ∨
    (∃ e, pipeFn n C h name = .parse e ∧ pipeFn n C h' name = .parse e) ∨
    ∃ (T : CgRes GenTemplate) (qs : List Str), pipeFn n C h name = .gen (T.map (·.fill qs)) ∧
      pipeFn n C h' name = .gen (T.map (·.fill (qs.map ρ))) := by
  rcases C89_fn C.env L h h' hs n name ρ ps body hr hd hd' with ⟨as, ts, e1, e2⟩ | ⟨e, e', e1, e2, ha⟩
  · right
    have hdots : ρ c!"..." = c!"..." := by
      by_cases he : ρ c!"..." = c!"..."
      · exact he
      · have := isIdent_iff.2 (hr.only _ he).2.1.1
        rw [dots_not_ident L] at this
        cases this
    obtain ⟨xs, tail, dots, rfl, h1, h2, h3⟩ := expandFn_shape e1
    have p1 : FnMacro.parseArgs (xs ++ tail) = some (idsOf xs ++ dots, []) := by
      rcases h2 with ⟨rfl, rfl⟩ | ⟨⟨cs, hcs, rfl⟩, rfl⟩
      · simpa using parseArgs_plain h1
      · exact parseArgs_variadic h1 hcs
    have p2 : FnMacro.parseArgs ((xs ++ tail).map (renamedToken ρ)) = some ((idsOf xs ++ dots).map ρ, []) := by
      rw [List.map_append, List.map_append, ← idsOf_renamed ρ h1]
      rcases h2 with ⟨rfl, rfl⟩ | ⟨⟨cs, hcs, rfl⟩, rfl⟩
      · simpa using parseArgs_plain (idsAndComments_renamed ρ h1)
      · rw [List.map_cons, comments_renamed ρ hcs, List.map_cons, hdots]
        exact parseArgs_variadic (idsAndComments_renamed ρ h1) hcs
    simp only [pipeFn, e1, e2, FnMacro.parse, p1, p2]
    by_cases hi : isIdentifier C.env name = true
    · simp only [if_pos hi]
      cases hb : MacroBody.parse C.env ts with
      | none => exact .inl ⟨_, rfl, rfl⟩
      | some b =>
        obtain ⟨b, rest⟩ := b
        right
        have hq : ParamList C name (idsOf xs ++ dots).length (fun i => (idsOf xs ++ dots)[i]? = some c!"...")
            (fun i => ((idsOf xs ++ dots)[i]?).bind (C.macroArgTy name)) (idsOf xs ++ dots) := by
          refine ⟨rfl, fun i _ => Iff.rfl, fun i q hi hn => ?_, fun i q hi => by rw [hi]; rfl⟩
          rcases List.mem_append.1 (List.mem_of_getElem? hi) with hm | hm
          · exact h3 q hm
          · refine absurd ?_ hn
            rcases h2 with ⟨_, rfl⟩ | ⟨_, rfl⟩
            · cases hm
            · rw [hi, List.mem_singleton.1 hm]
        have hq' := renamed_params L hr hdots ht hq
        obtain ⟨T, hT⟩ := C94 n C name b _ _ _
        exact ⟨T, _, congrArg PipeRes.gen (hT _ hq), congrArg PipeRes.gen (hT _ hq')⟩
    · exact .inl ⟨_, by rw [if_neg hi], by rw [if_neg hi]⟩
  · exact .inl ⟨e, e', by simp only [pipeFn, e1], by simp only [pipeFn, e2], ha⟩

/-! `#define MAC(a, b) a + b * a` and `#define MAC(x, a) x + a * x`. -/

def macPlain : List Op := [.defineFn c!"MAC" [c!"a", c!"b"] [c!"a", c!"+", c!"b", c!"*", c!"a"]]
def macOther : List Op := [.defineFn c!"MAC" [c!"x", c!"a"] [c!"x", c!"+", c!"a", c!"*", c!"x"]]
def macNames (s : Str) : Str := if s = c!"a" then c!"x" else if s = c!"b" then c!"a" else s

/-- The template for both. -/
def macTemplate : GenTemplate := .macro c!"MAC"
  [[.tok (.punct c!"$"), .param 0, .tok (.punct c!":"), .tok (.id c!"expr")], [.tok (.punct c!"$"), .param 1, .tok (.punct c!":"), .tok (.id c!"expr")]]
  [.tok (.punct c!"$"), .param 0, .tok (.punct c!"+"), .tok (.punct c!"$"), .param 1, .tok (.punct c!"*"), .tok (.punct c!"$"), .param 0]

theorem mac_renames : Renames asciiEnv macNames [c!"a", c!"b"] [c!"a", c!"+", c!"b", c!"*", c!"a"] where
  only s hs := by
    unfold macNames at hs ⊢
    split at hs
    · next h => subst h; exact ⟨by decide, paramName_ascii (by decide), paramName_ascii (by decide)⟩
    · split at hs
      · next h => subst h; exact ⟨by decide, paramName_ascii (by decide), paramName_ascii (by decide)⟩
      · exact absurd rfl hs
  apart := by decide +kernel
  noEscape := by decide +kernel

theorem mac_same (n : Str) : SameDef asciiEnv (Table.run macPlain n) (Table.run macOther n) := by
  by_cases h : n = c!"MAC"
  · subst h; exact .fn mac_renames
  · have e : Table.run macPlain n = none ∧ Table.run macOther n = none := by
      simp [Table.run, macPlain, macOther, Table.step, Table.set, h, Table.empty]
    rw [e.1, e.2]; exact .none

example (n : Nat) :
    (∃ e e', pipeFn n (Ctx.unit asciiEnv) macPlain c!"MAC" = .expand e ∧ pipeFn n (Ctx.unit asciiEnv) macOther c!"MAC" = .expand e' ∧ Alike (.error e : Res Unit) (.error e')) ∨
    (∃ e, pipeFn n (Ctx.unit asciiEnv) macPlain c!"MAC" = .parse e ∧ pipeFn n (Ctx.unit asciiEnv) macOther c!"MAC" = .parse e) ∨
    ∃ (T : CgRes GenTemplate) (qs : List Str), pipeFn n (Ctx.unit asciiEnv) macPlain c!"MAC" = .gen (T.map (·.fill qs)) ∧
      pipeFn n (Ctx.unit asciiEnv) macOther c!"MAC" = .gen (T.map (·.fill (qs.map macNames))) :=
  C94_macro (Ctx.unit asciiEnv) asciiEnv_lawful macPlain macOther mac_same n c!"MAC" macNames _ _ mac_renames rfl rfl fun _ => rfl

example : pipeFn 20 (Ctx.unit asciiEnv) macPlain c!"MAC" = .gen (.ok (macTemplate.fill [c!"a", c!"b"])) ∧
    pipeFn 20 (Ctx.unit asciiEnv) macOther c!"MAC" = .gen (.ok (macTemplate.fill [c!"x", c!"a"])) := by
  decide +kernel

/-- Two names are enough to see where the names stand: a template gives the names of the parameters at the places marked, and nowhere else. -/
example : (macTemplate.fill [c!"p", c!"q"]).toks =
    q!"# [ doc ( hidden ) ] # [ macro_export ] macro_rules ! __cmacro__MAC { ( $ p : expr , $ q : expr ) => { $ p + $ q * $ p } ; } pub use __cmacro__MAC as MAC ;" := by
  decide +kernel

/-- A context that knows the type of a parameter called `a`. -/
def aTyped : Ctx := { (Ctx.unit asciiEnv) with macroArgTy := fun _ a => if a = c!"a" then some (.prefixed none c!"i32") else none }

/-- The condition on the declared types is needed: with a type for `a` but not for `x`, one of `#define NEG(a) -a` and `#define NEG(x) -x` becomes a
function and the other one a macro. -/
example : pipeFn 20 aTyped [.defineFn c!"NEG" [c!"a"] [c!"-", c!"a"]] c!"NEG" = .gen (.ok (.fn c!"NEG" [q!"a : i32"] (some q!"i32") q!"- a")) ∧
    pipeFn 20 aTyped [.defineFn c!"NEG" [c!"x"] [c!"-", c!"x"]] c!"NEG" = .gen (.ok (.macro c!"NEG" [q!"$ x : expr"] q!"- $ x")) := by
  decide +kernel

end CMacro
