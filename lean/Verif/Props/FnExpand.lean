import Verif.Proofs.FnExpand
import Verif.Props.Calls

/-!
# Properties C69, C70: what function-like macros expand to, and calls of them
-/

namespace CMacro
open Spec (Op Def Table Item ArgText)

/-! ## C69 -/

/-- **C69**: a function-like macro expands to its parameters and to the expansion of its body in
which the macro itself is hidden and the parameters stay; other macros are replaced, calls that
contain parameters included. -/
theorem C69_fn_expansion (E : Env) (L : E.Lawful) (h : List Op) (hP : Spec.Plain (nameOf E) (Table.run h))
    (f : Str) (named body : List Str) (variadic : Bool)
    (hf : Table.run h f = some (.fn (named ++ if variadic then [c!"..."] else []) body)) (hell : c!"..." ∉ named)
    (out : List Item) (hx : Spec.Expands (nameOf E) (Table.run h) [f] (Spec.openBody (nameOf E) named body) out)
    (toks : List MacroToken) (hr : out.map (outToken E named) = toks.map some) :
    Returns (fun k => (MacroSet.run h).expandFn E k f)
      (.ok (named.map .ident ++ (if variadic then [.punct c!"..."] else []), toks)) :=
  expandFn_of_expands L (agrees_run h) hP hf hell hx hr

/-- `#define LIMIT 100`, `#define MAX(a, b) (a > b ? a : b)`, `#define CLAMP(x) MAX(x, LIMIT) + CLAMP`. -/
def clampHistory : List Op :=
  [.defineVar c!"LIMIT" [c!"100"],
   .defineFn c!"MAX" [c!"a", c!"b"] [c!"(", c!"a", c!">", c!"b", c!"?", c!"a", c!":", c!"b", c!")"],
   .defineFn c!"CLAMP" [c!"x"] [c!"MAX", c!"(", c!"x", c!",", c!"LIMIT", c!")", c!"+", c!"CLAMP"]]

theorem clampHistory_defs {n : Str} {d : Def} (h : Table.run clampHistory n = some d) :
    (n = c!"LIMIT" ∧ d = .var [c!"100"]) ∨
    (n = c!"MAX" ∧ d = .fn [c!"a", c!"b"] [c!"(", c!"a", c!">", c!"b", c!"?", c!"a", c!":", c!"b", c!")"]) ∨
    (n = c!"CLAMP" ∧ d = .fn [c!"x"] [c!"MAX", c!"(", c!"x", c!",", c!"LIMIT", c!")", c!"+", c!"CLAMP"]) := by
  simp only [clampHistory, Table.run, List.foldl, Table.step, Table.set, Table.empty] at h
  split at h
  · rename_i hn; simp only [Option.some.injEq] at h; exact .inr (.inr ⟨hn, h.symm⟩)
  · split at h
    · rename_i hn; simp only [Option.some.injEq] at h; exact .inr (.inl ⟨hn, h.symm⟩)
    · split at h
      · rename_i hn; simp only [Option.some.injEq] at h; exact .inl ⟨hn, h.symm⟩
      · simp at h

theorem clampHistory_plain : Spec.Plain (nameOf asciiEnv) (Table.run clampHistory) where
  var := by
    intro id body h
    rcases clampHistory_defs h with ⟨_, h⟩ | ⟨_, h⟩ | ⟨_, h⟩ <;> simp only [Def.var.injEq, reduceCtorEq] at h
    subst h
    exact ⟨by decide, by decide⟩
  fn := by
    intro id params body h
    rcases clampHistory_defs h with ⟨_, h⟩ | ⟨_, h⟩ | ⟨_, h⟩ <;> simp only [Def.fn.injEq, reduceCtorEq] at h
    all_goals
      obtain ⟨rfl, rfl⟩ := h
      exact ⟨by decide, by decide, _, .inl rfl, by decide, by decide +kernel⟩

/-- `CLAMP` expands to `(x > 100 ? x : 100) + CLAMP`, with `x` the parameter. -/
example : Returns (fun k => (MacroSet.run clampHistory).expandFn asciiEnv k c!"CLAMP")
    (.ok ([.ident c!"x"], [.punct c!"(", .arg 0, .punct c!">", .lit (.int ⟨100, none⟩), .punct c!"?", .arg 0, .punct c!":",
      .lit (.int ⟨100, none⟩), .punct c!")", .punct c!"+", .ident c!"CLAMP"])) := by
  refine C69_fn_expansion asciiEnv asciiEnv_lawful clampHistory clampHistory_plain c!"CLAMP" [c!"x"] _ false rfl (by decide)
    [.other c!"(", .other c!"x", .other c!">", .other c!"100", .other c!"?", .other c!"x", .other c!":", .other c!"100",
      .other c!")", .other c!"+", .name c!"CLAMP" true] ?_ _ (by decide +kernel)
  rw [show Spec.openBody (nameOf asciiEnv) [c!"x"] [c!"MAX", c!"(", c!"x", c!",", c!"LIMIT", c!")", c!"+", c!"CLAMP"] =
    [.name c!"MAX" false, .other c!"(", .other c!"x", .other c!",", .name c!"LIMIT" false, .other c!")", .other c!"+",
      .name c!"CLAMP" false] from by decide +kernel]
  refine .call (args := [[.other c!"x"], [.name c!"LIMIT" false]]) (args' := [[.other c!"x"], [.other c!"100"]])
    (rest := [.other c!"+", .name c!"CLAMP" false])
    (b := [.other c!"(", .other c!"x", .other c!">", .other c!"100", .other c!"?", .other c!"x", .other c!":", .other c!"100",
      .other c!")"]) (out := [.other c!"+", .name c!"CLAMP" true]) (by decide) rfl (by decide) (call_of_check (by decide)) (.inl rfl)
    (.cons (.other .nil) (.cons (.object (b := [.other c!"100"]) (out := []) (by decide) rfl ?_ .nil) .nil)) ?_
    (.other (.hidden (by decide) .nil))
  · rw [show [c!"100"].map (Spec.item (nameOf asciiEnv)) = [.other c!"100"] from by decide +kernel]
    exact .other .nil
  · rw [show Spec.subst (nameOf asciiEnv) [c!"a", c!"b"] [[.other c!"x"], [.other c!"100"]] none
      [c!"(", c!"a", c!">", c!"b", c!"?", c!"a", c!":", c!"b", c!")"] = [.other c!"(", .other c!"x", .other c!">", .other c!"100",
        .other c!"?", .other c!"x", .other c!":", .other c!"100", .other c!")"] from by decide +kernel]
    exact .other (.other (.other (.other (.other (.other (.other (.other (.other .nil))))))))

/-! ## C70 -/

/-- **C70**: in a well-nested set of definitions (see C07), expanding a call gives what the macro
expands to on its own with what the arguments expand to on their own in place of the
parameters. -/
theorem C70_call_composes (E : Env) (L : E.Lawful) (h : List Op) (hP : Spec.Plain (nameOf E) (Table.run h))
    (hW : Spec.WellNested (nameOf E) (Table.run h)) (f : Str) (named body : List Str)
    (hf : Table.run h f = some (.fn named body)) (hn : nameOf E f = some f) (hfp : Spec.PlainSpelling f)
    (as : List (List Str)) (hpl : ∀ a ∈ as, PlainInput a) (hat : ∀ a ∈ as, ArgText (a.map (Spec.item (nameOf E))))
    (hcm : ∀ a ∈ as, Spec.Complete (Table.run h) (a.map (Spec.item (nameOf E))))
    (har : as ≠ [] ∧ (as.length = named.length ∨ (named = [] ∧ as = [[]])))
    (ps toks : List MacroToken) (hF : Returns (fun k => (MacroSet.run h).expandFn E k f) (.ok (ps, toks)))
    (argToks : List (List MacroToken)) (hlen : as.length = argToks.length)
    (hA : ∀ i (_ : i < as.length) (_ : i < argToks.length), Returns (fun k => (MacroSet.run h).expand E k as[i]) (.ok argToks[i])) :
    ps = named.map .ident ∧
      Returns (fun k => (MacroSet.run h).expand E k (callText f as)) (.ok (toks.flatMap (place argToks))) :=
  call_composes L (agrees_run h) hP hW hf hn hfp hpl hat hcm har hF hlen hA

/-- Such macros always have an expansion, or an error is reported. -/
theorem C07_defined_macros_terminate_partial (E : Env) (L : E.Lawful) (h : List Op)
    (hP : Spec.Plain (nameOf E) (Table.run h)) (hW : Spec.WellNested (nameOf E) (Table.run h)) (f : Str) :
    (∃ r, Returns (fun k => (MacroSet.run h).expandVar E k f) r) ∧ ∃ r, Returns (fun k => (MacroSet.run h).expandFn E k f) r :=
  wellNested_returns L (agrees_run h) hP hW f

/-- `f ( g ( 2 ) )` in a recursive set: `f` expands to `( x * f ( 1 ) ) + f ( x )`, and `g ( 2 )`
to `( 2 * g ( 1 ) + f ( 1 ) )`, put in both places. -/
example : Returns (fun k => (MacroSet.run nestedHistory).expand asciiEnv k [c!"f", c!"(", c!"g", c!"(", c!"2", c!")", c!")"])
    (.ok ([.punct c!"(", .arg 0, .punct c!"*", .ident c!"f", .punct c!"(", .lit (.int ⟨1, none⟩), .punct c!")", .punct c!")",
      .punct c!"+", .ident c!"f", .punct c!"(", .arg 0, .punct c!")"].flatMap (place [
        [.punct c!"(", .lit (.int ⟨2, none⟩), .punct c!"*", .ident c!"g", .punct c!"(", .lit (.int ⟨1, none⟩), .punct c!")",
          .punct c!"+", .ident c!"f", .punct c!"(", .lit (.int ⟨1, none⟩), .punct c!")", .punct c!")"]]))) := by
  have e : [c!"g", c!"(", c!"2", c!")"].map (Spec.item (nameOf asciiEnv)) =
      [.name c!"g" false, .other c!"(", .other c!"2", .other c!")"] := by decide +kernel
  refine (C70_call_composes asciiEnv asciiEnv_lawful nestedHistory nestedHistory_plain nestedHistory_wellNested c!"f" [c!"x"] _ rfl
    (by decide +kernel) (by decide) [[c!"g", c!"(", c!"2", c!")"]] (by decide) ?_ ?_ ⟨by simp, .inl rfl⟩ [.ident c!"x"] _
    ⟨by simp, 6, by decide +kernel⟩ _ rfl ?_).2
  · intro a ha
    simp only [List.mem_singleton] at ha
    subst ha
    rw [e]
    exact argText_iff.2 (by decide)
  · intro a ha
    simp only [List.mem_singleton] at ha
    subst ha
    rw [e]
    refine .call (args := [[.other c!"2"]]) rfl ⟨by simp, ?_, rfl⟩ (.inl rfl) ?_ .nil
    all_goals
      intro a ha
      simp only [List.mem_singleton] at ha
      subst ha
      first | exact .other .nil | exact argText_iff.2 (by decide)
  · intro i hi _
    obtain rfl : i = 0 := by simpa using hi
    simp only [List.getElem_cons_zero]
    exact ⟨by simp, 6, by decide +kernel⟩

/-- `#define G(y) [y]`, `#define F(x) G x`. -/
def looseHistory : List Op :=
  [.defineFn c!"G" [c!"y"] [c!"[", c!"y", c!"]"], .defineFn c!"F" [c!"x"] [c!"G", c!"x"]]

/-- **C70** does not hold without the restriction: `F` expands to `G x`, and `( 1 )` to itself, but
`F ( ( 1 ) )` to `[ 1 ]`, as in C. -/
theorem C70_restriction_needed :
    Returns (fun k => (MacroSet.run looseHistory).expandFn asciiEnv k c!"F") (.ok ([.ident c!"x"], [.ident c!"G", .arg 0])) ∧
    Returns (fun k => (MacroSet.run looseHistory).expand asciiEnv k [c!"(", c!"1", c!")"])
      (.ok [.punct c!"(", .lit (.int ⟨1, none⟩), .punct c!")"]) ∧
    Returns (fun k => (MacroSet.run looseHistory).expand asciiEnv k (callText c!"F" [[c!"(", c!"1", c!")"]]))
      (.ok [.punct c!"[", .lit (.int ⟨1, none⟩), .punct c!"]"]) :=
  ⟨⟨by simp, 6, by decide +kernel⟩, ⟨by simp, 6, by decide +kernel⟩, ⟨by simp, 6, by decide +kernel⟩⟩

end CMacro
