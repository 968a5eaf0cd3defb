import Verif.Props.InlineCode

/-!
# C114: expanding what is expanded
-/

namespace CMacro
open Spec (Op Def Table Item Expands ExpandsAll Call Uses ArgText)

variable {E : Env} {nameOf' : Str → Option Str}

/-- The names that are left are those of no macro, and none of them is hidden. -/
theorem expands_left {D : Table} {H : List Str} {ts out : List Item} (h : Expands nameOf' D H ts out) :
    ∀ id, Item.name id false ∈ out → id ∉ H ∧ D id = none := by
  have step : ∀ {H : List Str} {x : Str} {b out : List Item}, (∀ id, Item.name id false ∈ b → id ∉ x :: H ∧ D id = none) →
      (∀ id, Item.name id false ∈ out → id ∉ H ∧ D id = none) → ∀ id, Item.name id false ∈ b ++ out → id ∉ H ∧ D id = none := by
    intro H x b out hb ho id hm
    rcases List.mem_append.1 hm with hm | hm
    · exact ⟨fun hi => (hb id hm).1 (List.mem_cons_of_mem _ hi), (hb id hm).2⟩
    · exact ho id hm
  refine Expands.rec
    (motive_1 := fun H ts out _ => ∀ id, Item.name id false ∈ out → id ∉ H ∧ D id = none)
    (motive_2 := fun _ _ _ _ => True)
    ?nil ?other ?painted ?hidden ?undefined ?object ?call ?callV ?anil ?acons h
  case nil => intro H id hm; cases hm
  case other => intro H s ts out _ ih id hm; exact ih id (by simpa using hm)
  case painted => intro H x ts out _ ih id hm; exact ih id (by simpa using hm)
  case hidden => intro H x ts out _ _ ih id hm; exact ih id (by simpa using hm)
  case undefined =>
    intro H x ts out hx hd _ ih id hm
    rcases List.mem_cons.1 hm with hm | hm
    · injection hm with h1 _
      subst h1
      exact ⟨hx, hd⟩
    · exact ih id hm
  case object => intro H x body b ts out _ _ _ _ ih1 ih2; exact step ih1 ih2
  case call => intro H x params body args args' b ts rest out _ _ _ _ _ _ _ _ _ ih1 ih2; exact step ih1 ih2
  case callV => intro H x params body args args' va b ts rest out _ _ _ _ _ _ _ _ _ _ _ ih1 ih2; exact step ih1 ih2
  case anil => exact fun {_} => trivial
  case acons => intros; trivial

/-- A text without names of macros is its own expansion. -/
theorem expands_self {D : Table} {H : List Str} : ∀ {ts : List Item}, (∀ id, Item.name id false ∈ ts → id ∉ H ∧ D id = none) →
    Expands nameOf' D H ts ts
  | [], _ => .nil
  | .other _ :: _, h => .other (expands_self fun id hm => h id (List.mem_cons_of_mem _ hm))
  | .name _ true :: _, h => .painted (expands_self fun id hm => h id (List.mem_cons_of_mem _ hm))
  | .name x false :: _, h =>
    .undefined (h x List.mem_cons_self).1 (h x List.mem_cons_self).2 (expands_self fun id hm => h id (List.mem_cons_of_mem _ hm))

theorem expands_again {D : Table} {H : List Str} {ts out : List Item} (h : Expands nameOf' D H ts out) : Expands nameOf' D H out out :=
  expands_self (expands_left h)

/-- **C114**: if the rules of the standard expand a text to another text, then `expand` gives the same for both, or reports the same error. -/
theorem C114_text (E : Env) (L : E.Lawful) (h : List Op) (hP : Spec.Plain (nameOf E) (Table.run h)) (text text' : List Str)
    (ht : PlainInput text) (ht' : PlainInput text')
    (hx : Expands (nameOf E) (Table.run h) [] (text.map (Spec.item (nameOf E))) (text'.map (Spec.item (nameOf E)))) :
    ∃ r, Returns (fun k => (MacroSet.run h).expand E k text) r ∧ Returns (fun k => (MacroSet.run h).expand E k text') r :=
  ⟨_, expand_runs L hP ht hx, expand_runs L hP ht' (expands_again hx)⟩

theorem expandVar_runs (L : E.Lawful) {h : List Op} {n : Str} {bd : List Str} {out : List Item} (hP : Spec.Plain (nameOf E) (Table.run h))
    (hd : Table.run h n = some (.var bd)) (hx : Expands (nameOf E) (Table.run h) [n] (bd.map (Spec.item (nameOf E))) out) :
    Returns (fun k => (MacroSet.run h).expandVar E k n) (detokenize 0 (out.map (tokOf E))) := by
  have hb' : PlainInput bd := hP.var n bd hd
  have hS : SameHidden (setInsert [] n) [n] := by
    intro id hid; simp [setInsert]
  obtain ⟨_, _, h3⟩ := expands_good L (agrees_run h) hP hx _ hS hb'.ok
  obtain ⟨N, hN⟩ := h3.nil_pre
  have hv : (MacroSet.run h).var.get n = some bd := by rw [(agrees_run h n).1, hd]
  refine ⟨detokenize_ne_diverge _ _, N, ?_⟩
  simp only [MacroSet.expandVar, hv, expandVarMacroBody_plain hb', hN N (Nat.le_refl _)]

/-- The same for the definition of a variable-like macro: two headers that differ in the definition of `n` only, which is expanded in `h'`. -/
theorem C114_var (E : Env) (L : E.Lawful) (h h' : List Op) (hP : Spec.Plain (nameOf E) (Table.run h))
    (hP' : Spec.Plain (nameOf E) (Table.run h')) (n : Str) (body body' : List Str) (hn : Table.run h n = some (.var body))
    (hn' : Table.run h' n = some (.var body')) (hsame : ∀ y, y ≠ n → Table.run h' y = Table.run h y)
    (hx : Expands (nameOf E) (Table.run h) [n] (body.map (Spec.item (nameOf E))) (body'.map (Spec.item (nameOf E)))) :
    ∃ r, Returns (fun k => (MacroSet.run h).expandVar E k n) r ∧ Returns (fun k => (MacroSet.run h').expandVar E k n) r :=
  ⟨_, expandVar_runs L hP hn hx,
    expandVar_runs L hP' hn' (expands_hidden_defs (expands_again hx) (fun y hy => hsame y (by simpa using hy)))⟩

/-- The same for the definition of a function-like macro. -/
theorem C114_fn (E : Env) (L : E.Lawful) (h h' : List Op) (hP : Spec.Plain (nameOf E) (Table.run h))
    (hP' : Spec.Plain (nameOf E) (Table.run h')) (n : Str) (xs body body' : List Str) (variadic : Bool) (hell : c!"..." ∉ xs)
    (hn : Table.run h n = some (.fn (xs ++ if variadic then [c!"..."] else []) body))
    (hn' : Table.run h' n = some (.fn (xs ++ if variadic then [c!"..."] else []) body'))
    (hsame : ∀ y, y ≠ n → Table.run h' y = Table.run h y)
    (hx : Expands (nameOf E) (Table.run h) [n] (Spec.openBody (nameOf E) xs body) (Spec.openBody (nameOf E) xs body')) :
    ∃ r, Returns (fun k => (MacroSet.run h).expandFn E k n) r ∧ Returns (fun k => (MacroSet.run h').expandFn E k n) r := by
  have h3 := expands_hidden_defs (D' := Table.run h') (expands_again hx) (fun y hy => hsame y (by simpa using hy))
  obtain ⟨P, N, hPn, _, _, hN⟩ := expandFn_runs L (agrees_run h) hP hn hell hx
  obtain ⟨Q, M, hQn, _, _, hM⟩ := expandFn_runs L (agrees_run h') hP' hn' hell h3
  have ht : tokIn Q = tokIn P := by
    funext t
    cases t with
    | name id p => cases p <;> rfl
    | other s => simp only [tokIn, hPn, hQn]
  rw [ht] at hM
  refine ⟨_, ⟨?_, N, hN⟩, ?_, M, hM⟩
  all_goals
    split
    · next e he =>
      intro h
      cases h
      exact detokenize_ne_diverge _ _ he
    · simp

/-- **C114** for the generated code of variable-like macros. -/
theorem C114_code_var (C : Ctx) (L : C.env.Lawful) (h h' : List Op) (hP : Spec.Plain (nameOf C.env) (Table.run h))
    (hP' : Spec.Plain (nameOf C.env) (Table.run h')) (n : Str) (body body' : List Str) (hn : Table.run h n = some (.var body))
    (hn' : Table.run h' n = some (.var body')) (hsame : ∀ y, y ≠ n → Table.run h' y = Table.run h y)
    (hx : Expands (nameOf C.env) (Table.run h) [n] (body.map (Spec.item (nameOf C.env))) (body'.map (Spec.item (nameOf C.env)))) :
    ∃ N, ∀ k ≥ N, pipeVar k C h' n = pipeVar k C h n :=
  pipeVar_same (C114_var C.env L h h' hP hP' n body body' hn hn' hsame hx)

/-- **C114** for the generated code of function-like macros. -/
theorem C114_code_fn (C : Ctx) (L : C.env.Lawful) (h h' : List Op) (hP : Spec.Plain (nameOf C.env) (Table.run h))
    (hP' : Spec.Plain (nameOf C.env) (Table.run h')) (n : Str) (xs body body' : List Str) (variadic : Bool) (hell : c!"..." ∉ xs)
    (hn : Table.run h n = some (.fn (xs ++ if variadic then [c!"..."] else []) body))
    (hn' : Table.run h' n = some (.fn (xs ++ if variadic then [c!"..."] else []) body'))
    (hsame : ∀ y, y ≠ n → Table.run h' y = Table.run h y)
    (hx : Expands (nameOf C.env) (Table.run h) [n] (Spec.openBody (nameOf C.env) xs body) (Spec.openBody (nameOf C.env) xs body')) :
    ∃ N, ∀ k ≥ N, pipeFn k C h' n = pipeFn k C h n :=
  pipeFn_same (C114_fn C.env L h h' hP hP' n xs body body' variadic hell hn hn' hsame hx)

/-- Names that were withheld are not withheld the second time: with `#define F F + 1`, the text `F` expands to `F + 1`, and `F + 1` expands to
`F + 1 + 1`, as in C. -/
theorem C114_restriction_needed :
    Returns (fun k => (MacroSet.run [.defineVar c!"F" [c!"F", c!"+", c!"1"]]).expand asciiEnv k [c!"F"])
      (.ok [.ident c!"F", .punct c!"+", .lit (.int ⟨1, none⟩)]) ∧
    Returns (fun k => (MacroSet.run [.defineVar c!"F" [c!"F", c!"+", c!"1"]]).expand asciiEnv k [c!"F", c!"+", c!"1"])
      (.ok [.ident c!"F", .punct c!"+", .lit (.int ⟨1, none⟩), .punct c!"+", .lit (.int ⟨1, none⟩)]) :=
  ⟨⟨by simp, 6, by decide +kernel⟩, ⟨by simp, 6, by decide +kernel⟩⟩

/-! ## Examples -/

/-- `#define LIMIT 100`, `#define MAX(a, b) (a > b ? a : b)` and `#define CAP(x) MAX(x, LIMIT) + other`. -/
def boundHistory : List Op :=
  [.defineVar c!"LIMIT" [c!"100"], .defineFn c!"MAX" [c!"a", c!"b"] [c!"(", c!"a", c!">", c!"b", c!"?", c!"a", c!":", c!"b", c!")"],
   .defineFn c!"CAP" [c!"x"] [c!"MAX", c!"(", c!"x", c!",", c!"LIMIT", c!")", c!"+", c!"other"]]

/-- `(x > 100 ? x : 100) + other`. -/
def capText : List Str := [c!"(", c!"x", c!">", c!"100", c!"?", c!"x", c!":", c!"100", c!")", c!"+", c!"other"]

theorem cap_expands : Expands (nameOf asciiEnv) (Table.run boundHistory) [c!"CAP"]
    (Spec.openBody (nameOf asciiEnv) [c!"x"] [c!"MAX", c!"(", c!"x", c!",", c!"LIMIT", c!")", c!"+", c!"other"])
    (Spec.openBody (nameOf asciiEnv) [c!"x"] capText) := by
  rw [show Spec.openBody (nameOf asciiEnv) [c!"x"] [c!"MAX", c!"(", c!"x", c!",", c!"LIMIT", c!")", c!"+", c!"other"] =
    [.name c!"MAX" false, .other c!"(", .other c!"x", .other c!",", .name c!"LIMIT" false, .other c!")", .other c!"+",
      .name c!"other" false] from by decide +kernel,
    show Spec.openBody (nameOf asciiEnv) [c!"x"] capText = [.other c!"(", .other c!"x", .other c!">", .other c!"100", .other c!"?", .other c!"x",
      .other c!":", .other c!"100", .other c!")", .other c!"+", .name c!"other" false] from by decide +kernel]
  refine .call (args := [[.other c!"x"], [.name c!"LIMIT" false]]) (args' := [[.other c!"x"], [.other c!"100"]])
    (rest := [.other c!"+", .name c!"other" false])
    (b := [.other c!"(", .other c!"x", .other c!">", .other c!"100", .other c!"?", .other c!"x", .other c!":", .other c!"100",
      .other c!")"]) (out := [.other c!"+", .name c!"other" false]) (by decide) rfl (by decide) (call_of_check (by decide)) (.inl rfl)
    (.cons (.other .nil) (.cons (.object (b := [.other c!"100"]) (out := []) (by decide) rfl (hundred_item ▸ .other .nil) .nil) .nil)) ?_
    (.other (.undefined (by decide) rfl .nil))
  rw [show Spec.subst (nameOf asciiEnv) [c!"a", c!"b"] [[.other c!"x"], [.other c!"100"]] none
    [c!"(", c!"a", c!">", c!"b", c!"?", c!"a", c!":", c!"b", c!")"] = [.other c!"(", .other c!"x", .other c!">", .other c!"100",
      .other c!"?", .other c!"x", .other c!":", .other c!"100", .other c!")"] from by decide +kernel]
  exact .other (.other (.other (.other (.other (.other (.other (.other (.other .nil))))))))

theorem cap_same : ∀ y, y ≠ c!"CAP" → Table.run (boundHistory ++ [.defineFn c!"CAP" [c!"x"] capText]) y = Table.run boundHistory y := by
  intro y hy
  simp only [boundHistory, Table.run, List.foldl, List.cons_append, List.nil_append, Table.step, Table.set, if_neg hy]

/-- The code for `CAP` is that for `#define CAP(x) (x > 100 ? x : 100) + other`. -/
example : ∃ N, ∀ k ≥ N, pipeFn k (Ctx.unit asciiEnv) (boundHistory ++ [.defineFn c!"CAP" [c!"x"] capText]) c!"CAP" =
    pipeFn k (Ctx.unit asciiEnv) boundHistory c!"CAP" :=
  C114_code_fn (Ctx.unit asciiEnv) asciiEnv_lawful _ _ (plain_of_check (by decide +kernel)) (plain_of_check (by decide +kernel))
    c!"CAP" [c!"x"] _ capText false (by decide) rfl rfl cap_same cap_expands

/-- Both expand to this. -/
example : (MacroSet.run boundHistory).expandFn asciiEnv 8 c!"CAP" =
      (MacroSet.run (boundHistory ++ [.defineFn c!"CAP" [c!"x"] capText])).expandFn asciiEnv 8 c!"CAP" ∧
    (MacroSet.run boundHistory).expandFn asciiEnv 8 c!"CAP" = .ok ([.ident c!"x"],
      [.punct c!"(", .arg 0, .punct c!">", .lit (.int ⟨100, none⟩), .punct c!"?", .arg 0, .punct c!":", .lit (.int ⟨100, none⟩), .punct c!")",
        .punct c!"+", .ident c!"other"]) := by decide +kernel

/-- `#define TWICE LIMIT + LIMIT` and `#define TWICE 100 + 100`. -/
example : ∃ N, ∀ k ≥ N, pipeVar k (Ctx.unit asciiEnv) (limitHistory ++ [.defineVar c!"TWICE" [c!"100", c!"+", c!"100"]]) c!"TWICE" =
    pipeVar k (Ctx.unit asciiEnv) limitHistory c!"TWICE" := by
  refine C114_code_var (Ctx.unit asciiEnv) asciiEnv_lawful _ _ (plain_of_check (by decide +kernel)) (plain_of_check (by decide +kernel))
    c!"TWICE" [c!"LIMIT", c!"+", c!"LIMIT"] [c!"100", c!"+", c!"100"] rfl rfl ?_ ?_
  · intro y hy
    simp only [limitHistory, Table.run, List.foldl, List.cons_append, List.nil_append, Table.step, Table.set, if_neg hy]
  · rw [show [c!"LIMIT", c!"+", c!"LIMIT"].map (Spec.item (nameOf (Ctx.unit asciiEnv).env)) =
        [.name c!"LIMIT" false, .other c!"+", .name c!"LIMIT" false] from by decide +kernel,
      show [c!"100", c!"+", c!"100"].map (Spec.item (nameOf (Ctx.unit asciiEnv).env)) = [.other c!"100", .other c!"+", .other c!"100"] from
        by decide +kernel]
    exact .object (b := [.other c!"100"]) (by decide) rfl (hundred_item ▸ .other .nil)
      (.other (.object (b := [.other c!"100"]) (out := []) (by decide) rfl (hundred_item ▸ .other .nil) .nil))

/-- The text `LIMIT + y` and its expansion. -/
example : ∃ r, Returns (fun k => (MacroSet.run limitHistory).expand asciiEnv k [c!"LIMIT", c!"+", c!"y"]) r ∧
    Returns (fun k => (MacroSet.run limitHistory).expand asciiEnv k [c!"100", c!"+", c!"y"]) r := by
  refine C114_text asciiEnv asciiEnv_lawful limitHistory (plain_of_check (by decide +kernel)) _ _ ⟨by decide, by decide⟩ ⟨by decide, by decide⟩ ?_
  rw [show [c!"LIMIT", c!"+", c!"y"].map (Spec.item (nameOf asciiEnv)) = [.name c!"LIMIT" false, .other c!"+", .name c!"y" false] from
      by decide +kernel,
    show [c!"100", c!"+", c!"y"].map (Spec.item (nameOf asciiEnv)) = [.other c!"100", .other c!"+", .name c!"y" false] from by decide +kernel]
  exact .object (b := [.other c!"100"]) (by decide) rfl (hundred_item ▸ .other .nil) (.other (.undefined (by decide) rfl .nil))

end CMacro
