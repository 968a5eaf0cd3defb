import Verif.Proofs.Rename

/-!
# C89: the names of the parameters make no difference
-/

namespace CMacro

open Spec

/-- Two histories of definitions define the same macros, except that a function-like macro may have other names for its parameters.
Then every token list, every object-like macro and every call expands to the same tokens or ends in the same error, panic or overflow.
The only thing that may differ is which name a complaint about a twice-used parameter name mentions. -/
theorem C89 (E : Env) (L : E.Lawful) (h h' : List Op) (hs : ∀ n, SameDef E (Table.run h n) (Table.run h' n)) (n : Nat) :
    (∀ body, Alike ((MacroSet.run h).expand E n body) ((MacroSet.run h').expand E n body)) ∧
    ∀ name, Alike ((MacroSet.run h).expandVar E n name) ((MacroSet.run h').expandVar E n name) := by
  have hm := sameSet hs
  have hv : ∀ name ts, Alike
      (match expandVarMacroBody E (expandMacroBody E (MacroSet.run h) n) [] name ts with | .error e => .error e | .ok ts => CMacro.detokenize 0 ts)
      (match expandVarMacroBody E (expandMacroBody E (MacroSet.run h') n) [] name ts with | .error e => .error e | .ok ts => CMacro.detokenize 0 ts) := by
    intro name ts
    rcases (alike_var (E := E) (alike_body L hm n) [] name ts).split with ⟨b, e1, e2⟩ | ⟨e, e', e1, e2, he⟩
    · rw [e1, e2]; exact .inl rfl
    · rw [e1, e2]; exact he _
  refine ⟨fun body => hv _ _, fun name => ?_⟩
  unfold MacroSet.expandVar
  rw [hm.1]
  cases (MacroSet.run h').var.get name with
  | none => exact .inl rfl
  | some b => exact hv _ _

/-- A function-like macro and the same macro with other parameter names: the expanded bodies are the same, and the parameter list
comes out with the new names; or both end in the same error. -/
theorem C89_fn (E : Env) (L : E.Lawful) (h h' : List Op) (hs : ∀ n, SameDef E (Table.run h n) (Table.run h' n)) (n : Nat)
    (name : Str) (ρ : Str → Str) (ps body : List Str) (hr : Renames E ρ ps body) (hd : Table.run h name = some (.fn ps body))
    (hd' : Table.run h' name = some (.fn (ps.map ρ) (body.map ρ))) :
    (∃ as ts, (MacroSet.run h).expandFn E n name = .ok (as, ts) ∧
      (MacroSet.run h').expandFn E n name = .ok (as.map (renamedToken ρ), ts)) ∨
    ∃ e e', (MacroSet.run h).expandFn E n name = .error e ∧ (MacroSet.run h').expandFn E n name = .error e' ∧
      Alike (.error e : Res Unit) (.error e') := by
  have hm := sameSet hs
  have e1 : (MacroSet.run h).fn.get name = some (ps, body) := by rw [(agrees_run h name).2, hd]
  have e2 : (MacroSet.run h').fn.get name = some (ps.map ρ, body.map ρ) := by rw [(agrees_run h' name).2, hd']
  unfold MacroSet.expandFn
  rw [e1, e2]
  dsimp only
  have ha := argNames_all L hr
  cases h1 : tokenizeArgNames E ps with
  | error e =>
    rw [h1] at ha
    cases h3 : tokenizeArgNames E (ps.map ρ) with
    | ok a => rw [h3] at ha; exact ha.elim
    | error e' =>
      rw [h3] at ha
      refine .inr ⟨e, e', rfl, rfl, ?_⟩
      rcases ha with rfl | ⟨d, d', rfl, rfl⟩
      · exact .inl rfl
      · exact .inr ⟨d, d', rfl, rfl⟩
  | ok a =>
    rw [h1] at ha
    obtain ⟨h3, hf⟩ := ha
    rw [h3]
    dsimp only
    rw [tokenize_renamed L hr h1 hf]
    rcases (alike_fn (E := E) (alike_body L hm n) [] name none (tokenize E a body) (noDuplicate L hr.noEscape h1)
        (noDuplicate L (noEscape_renamed L hr) h3)).split with ⟨ts, e1, e2⟩ | ⟨e, e', e1, e2, he⟩
    · rw [e1, e2]
      dsimp only
      rw [List.length_map]
      cases h4 : detokenize a.length ts with
      | error e => exact .inr ⟨e, e, rfl, rfl, .inl rfl⟩
      | ok ts =>
        dsimp only
        have hk := kinds_go ps false [] a h1 (by rintro _ ⟨⟩)
        obtain ⟨as, h5⟩ := detokenize_kinds a hk
        rw [detokenize_renTok a as hk h5, h5]
        exact .inl ⟨as, ts, rfl, rfl⟩
    · rw [e1, e2]
      exact .inr ⟨e, e', rfl, rfl, he _⟩

/-! `#define X 1`, `#define TWICE(a) a + a` and `#define USE(a, b) TWICE(a) * b ## X # a`.  The second history names the parameter of `TWICE` like the
macro `X`, and exchanges the names of the parameters of `USE`. -/

def plainNames : List Op :=
  [.defineVar c!"X" [c!"1"], .defineFn c!"TWICE" [c!"a"] [c!"a", c!"+", c!"a"],
    .defineFn c!"USE" [c!"a", c!"b"] [c!"TWICE", c!"(", c!"a", c!")", c!"*", c!"b", c!"##", c!"X", c!"#", c!"a"]]
def otherNames : List Op :=
  [.defineVar c!"X" [c!"1"], .defineFn c!"TWICE" [c!"X"] [c!"X", c!"+", c!"X"],
    .defineFn c!"USE" [c!"b", c!"a"] [c!"TWICE", c!"(", c!"b", c!")", c!"*", c!"a", c!"##", c!"X", c!"#", c!"b"]]

def twiceNames (s : Str) : Str := if s = c!"a" then c!"X" else s
def useNames (s : Str) : Str := if s = c!"a" then c!"b" else if s = c!"b" then c!"a" else s

theorem paramName_ascii {c : Char} (h : asciiEnv.xidStart c = true) : ParamName asciiEnv [c] :=
  ⟨⟨.inl h, by simp⟩, by simp⟩

theorem twice_renames : Renames asciiEnv twiceNames [c!"a"] [c!"a", c!"+", c!"a"] where
  only s hs := by
    unfold twiceNames at hs ⊢
    split at hs
    · next h => subst h; exact ⟨by decide, paramName_ascii (by decide), paramName_ascii (by decide)⟩
    · exact absurd rfl hs
  apart := by decide +kernel
  noEscape := by decide +kernel

theorem use_renames : Renames asciiEnv useNames [c!"a", c!"b"]
    [c!"TWICE", c!"(", c!"a", c!")", c!"*", c!"b", c!"##", c!"X", c!"#", c!"a"] where
  only s hs := by
    unfold useNames at hs ⊢
    split at hs
    · next h => subst h; exact ⟨by decide, paramName_ascii (by decide), paramName_ascii (by decide)⟩
    · split at hs
      · next h => subst h; exact ⟨by decide, paramName_ascii (by decide), paramName_ascii (by decide)⟩
      · exact absurd rfl hs
  apart := by decide +kernel
  noEscape := by decide +kernel

theorem names_same (n : Str) : SameDef asciiEnv (Table.run plainNames n) (Table.run otherNames n) := by
  by_cases h1 : n = c!"USE"
  · subst h1; exact .fn use_renames
  · by_cases h2 : n = c!"TWICE"
    · subst h2; exact .fn twice_renames
    · by_cases h3 : n = c!"X"
      · subst h3; exact .var
      · have e : Table.run plainNames n = none ∧ Table.run otherNames n = none := by
          simp [Table.run, plainNames, otherNames, Table.step, Table.set, h1, h2, h3, Table.empty]
        rw [e.1, e.2]; exact .none

example (n : Nat) (body : List Str) :
    Alike ((MacroSet.run plainNames).expand asciiEnv n body) ((MacroSet.run otherNames).expand asciiEnv n body) :=
  (C89 _ asciiEnv_lawful _ _ names_same n).1 body

example : (MacroSet.run plainNames).expand asciiEnv 20 [c!"USE", c!"(", c!"X", c!",", c!"y", c!")"] =
      .ok [.lit (.int ⟨1, none⟩), .punct c!"+", .lit (.int ⟨1, none⟩), .punct c!"*", .ident c!"yX", .lit (.string (.ordinary [88]))] ∧
    (MacroSet.run otherNames).expand asciiEnv 20 [c!"USE", c!"(", c!"X", c!",", c!"y", c!")"] =
      (MacroSet.run plainNames).expand asciiEnv 20 [c!"USE", c!"(", c!"X", c!",", c!"y", c!")"] := by
  decide +kernel

example : (MacroSet.run otherNames).expandFn asciiEnv 20 c!"USE" =
    ((MacroSet.run plainNames).expandFn asciiEnv 20 c!"USE").map fun r => (r.1.map (renamedToken useNames), r.2) := by
  decide +kernel

/-- A new name must not be one that the body uses already: `#define F(a) a + x` is not `#define F(x) x + x`. -/
example : (MacroSet.run [.defineFn c!"F" [c!"a"] [c!"a", c!"+", c!"x"]]).expand asciiEnv 20 [c!"F", c!"(", c!"1", c!")"] ≠
    (MacroSet.run [.defineFn c!"F" [c!"x"] [c!"x", c!"+", c!"x"]]).expand asciiEnv 20 [c!"F", c!"(", c!"1", c!")"] := by
  decide +kernel

end CMacro
