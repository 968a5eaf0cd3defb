import Verif.Props.Invalid
import Verif.Props.FnExpand

/-!
# Property C105 for function-like macros
-/

namespace CMacro
open Spec (Op Def Table Item Expands TokenRead)

variable {E : Env}

/-- How an item of an expanded body with parameters is read: parameters by their position,
`__VA_ARGS__` as the one after the last named parameter, everything else as a token. -/
inductive Spec.OpenRead (E : Env) (params : List Str) : Item → MacroToken → Prop
  | name {id p} : OpenRead E params (.name id p) (.ident id)
  | param {s i} : Spec.paramIndex params s = some i → OpenRead E params (.other s) (.arg i)
  | varArgs : c!"__VA_ARGS__" ∉ params →
      OpenRead E params (.other c!"__VA_ARGS__") (.arg params.length)
  | token {s m} : s ∉ params → s ≠ c!"__VA_ARGS__" → TokenRead E s m →
      OpenRead E params (.other s) m

/-- The items of an expanded body are read as the tokens `toks`, one by one. -/
inductive Spec.BodyRead (E : Env) (params : List Str) : List Item → List MacroToken → Prop
  | nil : BodyRead E params [] []
  | cons {i m is ms} : OpenRead E params i m → BodyRead E params is ms →
      BodyRead E params (i :: is) (m :: ms)

/-- The first item that can not be read is the text `s`. -/
def Spec.FirstInvalidIn (E : Env) (params : List Str) (out : List Item) (s : Str) : Prop :=
  ∃ a b toks, out = a ++ .other s :: b ∧ BodyRead E params a toks ∧
    ∀ m, ¬ OpenRead E params (.other s) m

theorem outToken_openRead (L : E.Lawful) {params : List Str} {i : Item} {m : MacroToken} :
    outToken E params i = some m ↔ Spec.OpenRead E params i m := by
  cases i with
  | name id p =>
    simp only [outToken, Option.some.injEq]
    constructor
    · rintro rfl; exact .name
    · intro h; cases h; rfl
  | other s =>
    simp only [outToken]
    cases hp : Spec.paramIndex params s with
    | some j =>
      simp only [Option.some.injEq]
      constructor
      · rintro rfl; exact .param hp
      · intro h
        cases h with
        | param h => rw [hp] at h; simp only [Option.some.injEq] at h; rw [h]
        | varArgs h => rw [paramIndex_none.2 h] at hp; simp at hp
        | token h => rw [paramIndex_none.2 h] at hp; simp at hp
    | none =>
      have hn := paramIndex_none.1 hp
      by_cases hv : s = c!"__VA_ARGS__"
      · subst hv
        simp only [if_true, Option.some.injEq]
        constructor
        · rintro rfl; exact .varArgs hn
        · intro h
          cases h with
          | param h => rw [hp] at h; simp at h
          | varArgs h => rfl
          | token h h1 => exact absurd rfl h1
      · simp only [if_neg hv]
        rw [C104_tokens E L s hv m]
        constructor
        · intro h; exact .token hn hv h
        · intro h
          cases h with
          | param h => rw [hp] at h; simp at h
          | varArgs h => exact absurd rfl hv
          | token _ _ h => exact h

theorem bodyRead_iff (L : E.Lawful) {params : List Str} : ∀ {out : List Item} {toks : List MacroToken},
    Spec.BodyRead E params out toks → out.map (outToken E params) = toks.map some := by
  intro out toks h
  induction h with
  | nil => rfl
  | cons h1 _ ih => simp only [List.map_cons, ih, (outToken_openRead L).2 h1]

theorem bodyRead_or_first (E : Env) (params : List Str) : ∀ out : List Item,
    (∃ toks, Spec.BodyRead E params out toks) ∨ ∃ s, Spec.FirstInvalidIn E params out s := by
  intro out
  induction out with
  | nil => exact .inl ⟨[], .nil⟩
  | cons i is ih =>
    by_cases hi : ∃ m, Spec.OpenRead E params i m
    · obtain ⟨m, hm⟩ := hi
      rcases ih with ⟨toks, h⟩ | ⟨s, a, b, toks, rfl, h2, h3⟩
      · exact .inl ⟨_, .cons hm h⟩
      · exact .inr ⟨s, i :: a, b, _, rfl, .cons hm h2, h3⟩
    · cases i with
      | name id p => exact absurd ⟨_, .name⟩ hi
      | other s => exact .inr ⟨s, [], is, [], rfl, .nil, fun m hm => hi ⟨m, hm⟩⟩

theorem bodyRead_unique (L : E.Lawful) {params : List Str} {out : List Item} {t t' : List MacroToken}
    (h : Spec.BodyRead E params out t) (h' : Spec.BodyRead E params out t') : t = t' := by
  have h1 := (bodyRead_iff L h).symm.trans (bodyRead_iff L h')
  exact List.map_inj_right (fun _ _ h => Option.some.inj h) |>.1 h1

theorem detokenize_append_error {n : Nat} {a b : List Token} {ms : List MacroToken}
    (h : detokenize n a = .ok ms) {e : Fail} (hb : detokenize n b = .error e) :
    detokenize n (a ++ b) = .error e := by
  induction a generalizing ms with
  | nil => exact hb
  | cons t ts ih =>
    simp only [detokenize] at h
    cases ht : t.detokenize n with
    | error e => rw [ht] at h; simp [bind, Except.bind] at h
    | ok m =>
      cases hts : detokenize n ts with
      | error e => rw [ht, hts] at h; simp [bind, Except.bind] at h
      | ok ms' =>
        simp only [List.cons_append, detokenize, ht, ih hts]
        rfl

theorem detokenize_invalidIn (L : E.Lawful) (ps : Params E) {k : Nat}
    (hk : k = ps.names.length + if ps.variadic then 1 else 0) {out : List Item} {s : Str}
    (ho : OkIns ps out) (h : Spec.FirstInvalidIn E ps.names out s) :
    detokenize k (out.map (tokIn ps)) = .error (.err (.invalidToken s)) := by
  obtain ⟨a, b, toks, rfl, h1, h2⟩ := h
  rw [List.map_append, List.map_cons]
  refine detokenize_append_error (detokenize_in ps hk (fun t ht => ho t (by simp [ht])) (bodyRead_iff L h1)) ?_
  have hp : Spec.paramIndex ps.names s = none := by
    cases hp : Spec.paramIndex ps.names s with
    | none => rfl
    | some i => exact absurd (.param hp) (h2 (.arg i))
  have hs : s ≠ c!"__VA_ARGS__" := by
    rintro rfl
    exact h2 _ (.varArgs (paramIndex_none.1 hp))
  have hf : Token.fromStr E s = .plain s :=
    fromStr_invalid L hs fun m hm => h2 m (.token (paramIndex_none.1 hp) hs hm)
  simp only [tokIn, hp, hf, detokenize, Token.detokenize]
  rfl

/-- **C105** for `expand_fn_macro`: the result is the parameters with the tokens of the expanded
body if all of it can be read; otherwise the first item that is no token is reported. -/
theorem C105_expand_fn (E : Env) (L : E.Lawful) (h : List Op)
    (hP : Spec.Plain (nameOf E) (Table.run h)) (f : Str) (named body : List Str) (variadic : Bool)
    (hf : Table.run h f = some (.fn (named ++ if variadic then [c!"..."] else []) body))
    (hell : c!"..." ∉ named) (out : List Item)
    (hx : Expands (nameOf E) (Table.run h) [f] (Spec.openBody (nameOf E) named body) out) :
    (∀ args toks, Returns (fun k => (MacroSet.run h).expandFn E k f) (.ok (args, toks)) ↔
      args = named.map .ident ++ (if variadic then [.punct c!"..."] else []) ∧
      Spec.BodyRead E named out toks) ∧
    ∀ s, Returns (fun k => (MacroSet.run h).expandFn E k f) (.error (.err (.invalidToken s))) ↔
      Spec.FirstInvalidIn E named out s := by
  have uniq : ∀ r r', Returns (fun k => (MacroSet.run h).expandFn E k f) r →
      Returns (fun k => (MacroSet.run h).expandFn E k f) r' → r = r' :=
    fun r r' a b => a.unique (fun _ _ hnm => expandFn_le E _ hnm f) b
  have h1 : ∀ toks, Spec.BodyRead E named out toks →
      Returns (fun k => (MacroSet.run h).expandFn E k f)
        (.ok (named.map .ident ++ (if variadic then [.punct c!"..."] else []), toks)) := fun toks ht =>
    C69_fn_expansion E L h hP f named body variadic hf hell out hx toks (bodyRead_iff L ht)
  have h2 : ∀ s, Spec.FirstInvalidIn E named out s →
      Returns (fun k => (MacroSet.run h).expandFn E k f) (.error (.err (.invalidToken s))) := by
    intro s hs
    obtain ⟨ps, N, rfl, rfl, hok, hN⟩ := expandFn_runs L (agrees_run h) hP hf hell hx
    refine ⟨by simp, N, ?_⟩
    simp only [hN, detokenize_invalidIn L ps rfl hok hs]
  refine ⟨fun args toks => ⟨fun hr => ?_, fun ⟨ha, hb⟩ => ha ▸ h1 toks hb⟩, fun s => ⟨fun hr => ?_, h2 s⟩⟩
  · rcases bodyRead_or_first E named out with ⟨toks', h'⟩ | ⟨s, h'⟩
    · have := uniq _ _ hr (h1 _ h')
      simp only [Except.ok.injEq, Prod.mk.injEq] at this
      exact ⟨this.1, this.2 ▸ h'⟩
    · have := uniq _ _ hr (h2 _ h'); simp at this
  · rcases bodyRead_or_first E named out with ⟨toks', h'⟩ | ⟨s', h'⟩
    · have := uniq _ _ hr (h1 _ h'); simp at this
    · have := uniq _ _ hr (h2 _ h')
      simp only [Except.error.injEq, Fail.err.injEq, ExpansionError.invalidToken.injEq] at this
      rw [this]; exact h'

/-- `#define POW(x, n) x @ n`. -/
def powHistory : List Op := [.defineFn c!"POW" [c!"x", c!"n"] [c!"x", c!"@", c!"n"]]

/-- The error names the text that is no token. -/
example : Returns (fun k => (MacroSet.run powHistory).expandFn asciiEnv k c!"POW")
    (.error (.err (.invalidToken c!"@"))) := by
  have hd : ∀ {n : Str} {d : Def}, Table.run powHistory n = some d →
      d = .fn [c!"x", c!"n"] [c!"x", c!"@", c!"n"] := by
    intro n d h
    simp only [powHistory, Table.run, List.foldl, Table.step, Table.set, Table.empty] at h
    split at h
    · simp only [Option.some.injEq] at h; exact h.symm
    · simp at h
  have hP : Spec.Plain (nameOf asciiEnv) (Table.run powHistory) := by
    refine ⟨?_, ?_⟩
    · intro id b h
      have := hd h
      simp at this
    · intro id p b h
      have := hd h
      simp only [Def.fn.injEq] at this
      obtain ⟨rfl, rfl⟩ := this
      exact ⟨by decide, by decide, _, .inl rfl, by decide, by decide +kernel⟩
  refine ((C105_expand_fn asciiEnv asciiEnv_lawful powHistory hP c!"POW" [c!"x", c!"n"]
    [c!"x", c!"@", c!"n"] false rfl (by decide) [.other c!"x", .other c!"@", .other c!"n"] ?_).2 _).2
    ⟨[.other c!"x"], [.other c!"n"], [.arg 0], rfl, .cons (.param rfl) .nil, ?_⟩
  · exact .other (.other (.other .nil))
  · intro m hm
    cases hm with
    | param h => simp [Spec.paramIndex] at h
    | token _ _ h =>
      have := (C104_tokens asciiEnv asciiEnv_lawful c!"@" (by decide) m).2 h
      rw [show classify asciiEnv c!"@" = none from by decide +kernel] at this
      simp at this

end CMacro
