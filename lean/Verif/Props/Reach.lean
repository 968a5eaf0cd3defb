import Verif.Proofs.Reach
import Verif.Proofs.Congr

/-!
# C90: only reachable definitions matter
-/

namespace CMacro

open Spec (Op Def Table Closed)

/-- The set of words still is closed for another table with the same definitions of these words. -/
theorem closed_same {T : Str → Prop} {D D' : Str → Option Def} (h : Closed T D) (hs : ∀ n, T n → D n = D' n) : Closed T D' :=
  ⟨fun n d ht hd => h.bodies n d ht (by rw [hs n ht]; exact hd), h.pasted, h.noEscape⟩

theorem only_same {T : Str → Prop} {h h' : List Op} (hs : ∀ n, T n → Table.run h n = Table.run h' n) :
    SameAnswers ((MacroSet.run h).only T) ((MacroSet.run h').only T) := by
  intro n
  unfold MacroSet.only
  dsimp only
  rw [get_only, get_only, get_only, get_only]
  by_cases ht : T n
  · rw [if_pos ht, if_pos ht, if_pos ht, if_pos ht, (agrees_run h n).1, (agrees_run h n).2, (agrees_run h' n).1, (agrees_run h' n).2, hs n ht]
    exact ⟨rfl, rfl⟩
  · rw [if_neg ht, if_neg ht, if_neg ht, if_neg ht]
    exact ⟨rfl, rfl⟩

theorem body_same {E : Env} (L : E.Lawful) (hd : ∀ s, '"' ∈ E.debugFmt s) {T : Str → Prop} {h h' : List Op} (hT : Closed T (Table.run h))
    (hs : ∀ n, T n → Table.run h n = Table.run h' n) (n : Nat) (names : List Str) {ts : List Token} (ht : AllTok (Within E T) ts) :
    expandMacroBody E (MacroSet.run h) n names ts = expandMacroBody E (MacroSet.run h') n names ts := by
  rw [macroBody_only L hd hT n names ts ht, macroBody_only L hd (closed_same hT hs) n names ts ht, expandMacroBody_congr E (only_same hs) n]

/-- Two histories of definitions agree on all words of a set that contains, with the name of a macro, the words of its body, and, if tokens are pasted,
the pasted words.  Then everything made of such words expands in the same way: token lists, object-like and function-like macros.  What is
defined under other names makes no difference, not even to errors. -/
theorem C90 (E : Env) (L : E.Lawful) (hd : ∀ s, '"' ∈ E.debugFmt s) (T : Str → Prop) (h h' : List Op) (hT : Closed T (Table.run h))
    (hs : ∀ n, T n → Table.run h n = Table.run h' n) (n : Nat) :
    (∀ body, (∀ w ∈ body, T w) → (MacroSet.run h).expand E n body = (MacroSet.run h').expand E n body) ∧
    (∀ name, T name → (MacroSet.run h).expandVar E n name = (MacroSet.run h').expandVar E n name) ∧
    ∀ name, T name → (MacroSet.run h).expandFn E n name = (MacroSet.run h').expandFn E n name := by
  have H := stepInv_only L hd hT
  have hr : ∀ S ts, AllTok (Within E T) ts → expandMacroBody E (MacroSet.run h) n S ts = expandMacroBody E (MacroSet.run h') n S ts :=
    fun S ts ht => body_same L hd hT hs n S ht
  have hsat : ∀ S ts, AllTok (Within E T) ts → (expandMacroBody E (MacroSet.run h') n S ts).Sat (AllTok (Within E T)) (fun _ => True) := by
    intro S ts ht
    rw [← hr S ts ht, macroBody_only L hd hT n S ts ht]
    exact expandMacroBody_sat H n S ts ht
  refine ⟨fun body hb => ?_, fun name hn => ?_, fun name hn => ?_⟩
  · unfold MacroSet.expand
    rw [expandVar_only H hr [] [] (within_tokenize L hT.noEscape [] hb)]
  · unfold MacroSet.expandVar
    rw [(agrees_run h name).1, (agrees_run h' name).1, hs name hn]
    cases hx : Table.run h' name with
    | none => rfl
    | some d =>
      cases d with
      | fn ps b => rfl
      | var b =>
        dsimp only
        have hw : AllTok (Within E T) (tokenize E [] b) := within_body (d := .var b) L hT hn [] (by rw [hs name hn]; exact hx)
        rw [expandVar_only H hr [] name hw]
  · unfold MacroSet.expandFn
    rw [(agrees_run h name).2, (agrees_run h' name).2, hs name hn]
    cases hx : Table.run h' name with
    | none => rfl
    | some d =>
      cases d with
      | var b => rfl
      | fn ps b =>
        dsimp only
        cases ha : tokenizeArgNames E ps with
        | error e => rfl
        | ok a =>
          dsimp only
          have hw : AllTok (Within E T) (tokenize E a b) := within_body (d := .fn ps b) L hT hn a (by rw [hs name hn]; exact hx)
          rw [expandFn_only H hr hsat [] name a none (by rintro _ ⟨⟩) hw]

/-- Defining or undefining a macro whose name does not come up changes no expansion. -/
theorem C90_step (E : Env) (L : E.Lawful) (hd : ∀ s, '"' ∈ E.debugFmt s) (T : Str → Prop) (h : List Op) (hT : Closed T (Table.run h))
    (o : Op) (ho : ¬ T (o.name)) (n : Nat) (body : List Str) (hb : ∀ w ∈ body, T w) :
    (MacroSet.run (h ++ [o])).expand E n body = (MacroSet.run h).expand E n body := by
  refine ((C90 E L hd T h (h ++ [o]) hT (fun k hk => ?_) n).1 body hb).symm
  have hne : k ≠ o.name := fun e => ho (e ▸ hk)
  unfold Table.run
  rw [List.foldl_append]
  exact (step_other _ _ _ hne.symm).symm

theorem ascii_quotes (s : Str) : '"' ∈ asciiEnv.debugFmt s := List.mem_append_left _ List.mem_cons_self

/-! `#define AREA(w, h) MUL(w, h) "\n"` and `#define MUL(a, b) a * b`: what `AREA(2, x)` is depends on the definitions of the words
in these bodies and of `x`, and on nothing else. -/

def areaOps : List Op :=
  [.defineFn c!"MUL" [c!"a", c!"b"] [c!"a", c!"*", c!"b"],
    .defineFn c!"AREA" [c!"w", c!"h"] [c!"MUL", c!"(", c!"w", c!",", c!"h", c!")", c!"\"\\n\""]]

def areaWords : List Str :=
  [c!"AREA", c!"MUL", c!"a", c!"b", c!"w", c!"h", c!"x", c!"2", c!"*", c!"(", c!")", c!",", c!"\"\\n\""]

theorem area_closed : Closed (· ∈ areaWords) (Table.run areaOps) where
  bodies n d hn hd := by
    have key : ∀ n ∈ areaWords, ∀ d ∈ Table.run areaOps n, ∀ w ∈ d.words, w ∈ areaWords := by decide +kernel
    exact key n hn d hd
  pasted h := absurd h (by decide)
  noEscape := by decide +kernel

example (n : Nat) (b : List Str) :
    (MacroSet.run (areaOps ++ [.defineVar c!"width" b])).expand asciiEnv n [c!"AREA", c!"(", c!"2", c!",", c!"x", c!")"] =
      (MacroSet.run areaOps).expand asciiEnv n [c!"AREA", c!"(", c!"2", c!",", c!"x", c!")"] :=
  C90_step asciiEnv asciiEnv_lawful ascii_quotes _ _ area_closed (.defineVar c!"width" b) (show ¬ c!"width" ∈ areaWords by decide +kernel) n _ (by decide +kernel)

/-! With `#define CAT(a, b) a ## b`, words without `_` lead to words without `_`. -/

def catOps : List Op := [.defineFn c!"CAT" [c!"a", c!"b"] [c!"a", c!"##", c!"b"]]

theorem cat_closed : Closed (fun s => '_' ∉ s ∧ '\\' ∉ s) (Table.run catOps) where
  bodies n d _ hd := by
    by_cases hn : n = c!"CAT"
    · subst hn; cases hd; decide +kernel
    · simp [Table.run, catOps, Table.step, Table.set, hn, Table.empty] at hd
  pasted _ s t hs ht := ⟨fun h => (List.mem_append.1 h).elim hs.1 ht.1, fun h => (List.mem_append.1 h).elim hs.2 ht.2⟩
  noEscape w hw h := absurd h hw.2

example (n : Nat) (b : List Str) :
    (MacroSet.run (catOps ++ [.defineVar c!"x_y" b])).expand asciiEnv n [c!"CAT", c!"(", c!"x", c!",", c!"y", c!")"] =
      (MacroSet.run catOps).expand asciiEnv n [c!"CAT", c!"(", c!"x", c!",", c!"y", c!")"] :=
  C90_step asciiEnv asciiEnv_lawful ascii_quotes _ _ cat_closed (.defineVar c!"x_y" b) (fun h => h.1 (show '_' ∈ c!"x_y" by decide)) n _ (by decide +kernel)

/-- A pasted word must be in the set: `xy` is in no body, but its definition matters. -/
example : (MacroSet.run (catOps ++ [.defineVar c!"xy" [c!"1"]])).expand asciiEnv 20 [c!"CAT", c!"(", c!"x", c!",", c!"y", c!")"] ≠
    (MacroSet.run catOps).expand asciiEnv 20 [c!"CAT", c!"(", c!"x", c!",", c!"y", c!")"] := by decide +kernel

end CMacro
