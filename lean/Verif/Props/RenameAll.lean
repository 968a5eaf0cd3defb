import Verif.Proofs.RenameAll
import Verif.Props.Reach

/-!
# C106: names have no meaning of their own
-/

namespace CMacro

open Spec (Op Def Table RenamesAll)

/-- Rename macros, parameters and all other identifiers consistently, in all definitions and in the text: what comes out is what came out before,
with the names renamed.  This holds for texts, object-like and function-like macros, and for errors, as long as `#` and `##` are not used. -/
theorem C106 (E : Env) (ρ : Str → Str) (h : List Op) (n : Nat) (R : RenamesAll (nameOf E) ρ (Spec.allWords h))
    (hp : ∀ o ∈ h, ∀ w ∈ o.body, Spec.PlainSpelling w) :
    (∀ text, RenamesAll (nameOf E) ρ text → (∀ w ∈ text, Spec.PlainSpelling w) →
      (MacroSet.run (h.map (Op.rename ρ))).expand E n (text.map ρ) =
        ((MacroSet.run h).expand E n text).rename ρ (List.map (MacroToken.rename ρ))) ∧
    (∀ name, (MacroSet.run (h.map (Op.rename ρ))).expandVar E n (ρ name) =
      ((MacroSet.run h).expandVar E n name).rename ρ (List.map (MacroToken.rename ρ))) ∧
    ∀ name, (MacroSet.run (h.map (Op.rename ρ))).expandFn E n (ρ name) =
      ((MacroSet.run h).expandFn E n name).rename ρ
        (fun r => (r.1.map (MacroToken.rename ρ), r.2.map (MacroToken.rename ρ))) := by
  have H := noOp_stepInv (E := E) hp
  have hm := macroBody_rename (E := E) hp R n
  refine ⟨fun text Rt ht => ?_, fun name => ?_, fun name => ?_⟩
  · unfold MacroSet.expand
    have h1 := tokenize_rename Rt [] (fun s hs => hs)
    rw [show ([] : List Token).map (Token.rename ρ) = [] from rfl] at h1
    have h2 := varBody_rename (E := E) R.inj hm [] [] (tokenize_noOp (E := E) [] ht)
    rw [R.empty, show ([] : List Str).map ρ = [] from rfl] at h2
    rw [h1, h2]
    cases expandVarMacroBody E (expandMacroBody E (MacroSet.run h) n) [] [] (tokenize E [] text) with
    | error e => rfl
    | ok ts => exact detokenize_rename 0 ts
  · unfold MacroSet.expandVar
    rw [(get_rename R.inj h name).1]
    cases hg : (MacroSet.run h).var.get name with
    | none => rfl
    | some b =>
      have hd : Table.run h name = some (.var b) := by
        rw [(agrees_run h name).1] at hg
        split at hg
        · next hd => cases hg; exact hd
        · cases hg
      have hw := defs_plain hp hd
      dsimp only [Option.map_some]
      have h1 := tokenize_rename R [] (fun s hs => (hw s hs).1)
      rw [show ([] : List Token).map (Token.rename ρ) = [] from rfl] at h1
      have h2 := varBody_rename (E := E) R.inj hm [] name (tokenize_noOp (E := E) [] (fun s hs => (hw s hs).2))
      rw [show ([] : List Str).map ρ = [] from rfl] at h2
      rw [h1, h2]
      cases expandVarMacroBody E (expandMacroBody E (MacroSet.run h) n) [] name (tokenize E [] b) with
      | error e => rfl
      | ok ts => exact detokenize_rename 0 ts
  · unfold MacroSet.expandFn
    rw [(get_rename R.inj h name).2]
    cases hg : (MacroSet.run h).fn.get name with
    | none => rfl
    | some d =>
      obtain ⟨a, b⟩ := d
      have hd : Table.run h name = some (.fn a b) := by
        rw [(agrees_run h name).2] at hg
        split at hg
        · next hd => cases hg; exact hd
        · cases hg
      have hw := defs_plain hp hd
      dsimp only [Option.map_some]
      rw [argNames_rename R hw.1]
      cases hn : tokenizeArgNames E a with
      | error e => rfl
      | ok an =>
        simp only [Res.rename]
        rw [tokenize_rename R an (fun s hs => (hw.2 s hs).1)]
        have h7 := fnBody_rename R hm (expandMacroBody_sat H n) [] name (argNamesGo_argName a false [] an (by rintro _ ⟨⟩) hn)
          (args := none) (by rintro _ ⟨⟩) (tokenize_noOp (E := E) an (fun s hs => (hw.2 s hs).2))
        rw [Option.map_none, show ([] : List Str).map ρ = [] from rfl] at h7
        rw [h7]
        cases expandFnMacroBody E (expandMacroBody E (MacroSet.run h) n) [] name an none (tokenize E an b) with
        | error e => rfl
        | ok ts =>
          simp only [Res.rename, List.length_map]
          rw [detokenize_rename, detokenize_rename]
          cases detokenize an.length ts with
          | error e => rfl
          | ok r =>
            cases detokenize 0 an with
            | error e => rfl
            | ok q => rfl

/-! `#define N 3`, `#define SQ(x) x * x + N` with `N`, `x` called `LEN`, `y` instead (and the other way round). -/

/-- Exchange two words. -/
def swapWords (a b s : Str) : Str := if s = a then b else if s = b then a else s

theorem swapWords_inj (a b : Str) : ∀ s t, swapWords a b s = swapWords a b t → s = t := by
  intro s t h
  unfold swapWords at h
  repeat' split at h
  all_goals simp_all

def sqOps : List Op := [.defineVar c!"N" [c!"3"], .defineFn c!"SQ" [c!"x"] [c!"x", c!"*", c!"x", c!"+", c!"N"]]

def sqRename (s : Str) : Str := swapWords c!"N" c!"LEN" (swapWords c!"x" c!"y" s)

theorem sqRename_inj : ∀ s t, sqRename s = sqRename t → s = t := fun _ _ h => swapWords_inj _ _ _ _ (swapWords_inj _ _ _ _ h)

theorem sq_renames : RenamesAll (nameOf asciiEnv) sqRename (Spec.allWords sqOps) :=
  ⟨sqRename_inj, by decide +kernel, by decide +kernel, by decide +kernel, by decide +kernel⟩

example : (MacroSet.run [.defineVar c!"LEN" [c!"3"], .defineFn c!"SQ" [c!"y"] [c!"y", c!"*", c!"y", c!"+", c!"LEN"]]).expand asciiEnv 9
      [c!"SQ", c!"(", c!"x", c!")", c!";", c!"SQ", c!"(", c!"N", c!")"] =
    ((MacroSet.run sqOps).expand asciiEnv 9 [c!"SQ", c!"(", c!"y", c!")", c!";", c!"SQ", c!"(", c!"LEN", c!")"]).rename sqRename
      (List.map (MacroToken.rename sqRename)) :=
  (C106 asciiEnv sqRename sqOps 9 sq_renames (by decide +kernel)).1 [c!"SQ", c!"(", c!"y", c!")", c!";", c!"SQ", c!"(", c!"LEN", c!")"]
    ⟨sqRename_inj, by decide +kernel, by decide +kernel, by decide +kernel, by decide +kernel⟩ (by decide +kernel)

/-- It is not the empty statement: the expansion succeeds. -/
example : ((MacroSet.run sqOps).expand asciiEnv 9 [c!"SQ", c!"(", c!"y", c!")"]).rename sqRename (List.map (MacroToken.rename sqRename)) =
    .ok [.ident c!"x", .punct c!"*", .ident c!"x", .punct c!"+", .lit (.int ⟨3, none⟩)] := by decide +kernel

/-- With `#` the spelling of a name shows: `STR(y)` with `#define STR(x) #x`. -/
example : (MacroSet.run ([.defineFn c!"STR" [c!"x"] [c!"#", c!"x"]].map (Op.rename (swapWords c!"y" c!"z")))).expand asciiEnv 9
      ([c!"STR", c!"(", c!"y", c!")"].map (swapWords c!"y" c!"z")) ≠
    ((MacroSet.run [.defineFn c!"STR" [c!"x"] [c!"#", c!"x"]]).expand asciiEnv 9 [c!"STR", c!"(", c!"y", c!")"]).rename (swapWords c!"y" c!"z")
      (List.map (MacroToken.rename (swapWords c!"y" c!"z"))) := by decide +kernel

/-- With `##` as well: `CAT(x, y)` is `xy`. -/
example : (MacroSet.run (catOps.map (Op.rename (swapWords c!"y" c!"z")))).expand asciiEnv 9
      ([c!"CAT", c!"(", c!"x", c!",", c!"y", c!")"].map (swapWords c!"y" c!"z")) ≠
    ((MacroSet.run catOps).expand asciiEnv 9 [c!"CAT", c!"(", c!"x", c!",", c!"y", c!")"]).rename (swapWords c!"y" c!"z")
      (List.map (MacroToken.rename (swapWords c!"y" c!"z"))) := by decide +kernel

/-- A renaming that makes two names one is none: `N` and `x` both called `x`. -/
example : (MacroSet.run (sqOps.map (Op.rename fun s => if s = c!"N" then c!"x" else s))).expandFn asciiEnv 9 c!"SQ" ≠
    ((MacroSet.run sqOps).expandFn asciiEnv 9 c!"SQ").rename (fun s => if s = c!"N" then c!"x" else s) (fun r =>
      (r.1.map (MacroToken.rename fun s => if s = c!"N" then c!"x" else s), r.2.map (MacroToken.rename fun s => if s = c!"N" then c!"x" else s))) := by
  decide +kernel

end CMacro
