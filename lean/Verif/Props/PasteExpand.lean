import Verif.Proofs.PasteExpand
import Verif.Props.Expand

/-!
# Property C86: macros that use `##` expand to the textbook result
-/

namespace CMacro
open Spec (Op Def Table Item Call PElem Pastes Replaces ReplacesAll OperandKept argumentOf fillBody)

/-- Textbook expansion is what `expand` computes, for texts in which the arguments next to `##`
satisfy `R`. -/
def ExpandsAsWritten (R : List Item → List Item → Prop) : Prop :=
  ∀ (E : Env), E.Lawful → ∀ (h : List Op), Spec.PlainPaste (nameOf E) (Table.run h) →
    ∀ (ts : List Str), PasteInput ts → ∀ (mid out : List Item) (toks : List MacroToken),
      Pastes (nameOf E) E.xidContinue (fillBody (nameOf E) (fun _ => none) false ts) mid →
      Replaces R (nameOf E) E.xidContinue (Table.run h) [] mid out →
      results E out = some toks →
      Returns (fun k => (MacroSet.run h).expand E k ts) (.ok toks)

/-- **C86**, the full statement: with definitions that use `##` but not `#`, a text that expands
by the rules of C11 6.10.3 expands to the same tokens here. -/
def C86_statement : Prop := ExpandsAsWritten fun _ _ => True

/-- **C86**, what holds: the full statement, if the arguments next to `##` contain nothing to
replace and no names marked earlier. -/
theorem C86_paste_expands_partial : ExpandsAsWritten OperandKept :=
  fun _ L h hP _ hts _ _ _ hm hr ht => expand_of_replaces L (agrees_run h) hP hts hm hr ht

/-- **C86** for `expand_var_macro`. -/
theorem C86_paste_var_partial (E : Env) (L : E.Lawful) (h : List Op)
    (hP : Spec.PlainPaste (nameOf E) (Table.run h)) (name : Str) (body : List Str)
    (hd : Table.run h name = some (.var body)) (mid out : List Item) (toks : List MacroToken)
    (hm : Pastes (nameOf E) E.xidContinue (fillBody (nameOf E) (fun _ => none) false body) mid)
    (hr : Replaces OperandKept (nameOf E) E.xidContinue (Table.run h) [name] mid out)
    (ht : results E out = some toks) :
    Returns (fun k => (MacroSet.run h).expandVar E k name) (.ok toks) :=
  expandVar_of_replaces L (agrees_run h) hP hd hm hr ht

/-- `#define CAT(x, y) x ## y`, `#define MAKE(n) CAT ( v , n ) + n`, `#define v2 7`, `#define X 1`,
`#define G(x) CAT ( x , )`, `#define f 1 + f`, `#define T a ## b ## 3 + v2`. -/
def pasteHistory : List Op :=
  [.defineFn c!"CAT" [c!"x", c!"y"] [c!"x", c!"##", c!"y"],
   .defineFn c!"MAKE" [c!"n"] [c!"CAT", c!"(", c!"v", c!",", c!"n", c!")", c!"+", c!"n"],
   .defineVar c!"v2" [c!"7"],
   .defineVar c!"X" [c!"1"],
   .defineFn c!"G" [c!"x"] [c!"CAT", c!"(", c!"x", c!",", c!")"],
   .defineVar c!"f" [c!"1", c!"+", c!"f"],
   .defineVar c!"T" [c!"a", c!"##", c!"b", c!"##", c!"3", c!"+", c!"v2"]]

theorem pasteHistory_defs {n : Str} {d : Def} (h : Table.run pasteHistory n = some d) :
    d ∈ [Def.fn [c!"x", c!"y"] [c!"x", c!"##", c!"y"],
      .fn [c!"n"] [c!"CAT", c!"(", c!"v", c!",", c!"n", c!")", c!"+", c!"n"], .var [c!"7"],
      .var [c!"1"], .fn [c!"x"] [c!"CAT", c!"(", c!"x", c!",", c!")"], .var [c!"1", c!"+", c!"f"],
      .var [c!"a", c!"##", c!"b", c!"##", c!"3", c!"+", c!"v2"]] := by
  simp only [pasteHistory, Table.run, List.foldl, Table.step, Table.set, Table.empty] at h
  repeat' split at h
  all_goals first
    | (simp only [Option.some.injEq] at h; subst h; simp; done)
    | (simp at h; done)

theorem pasteHistory_plain : Spec.PlainPaste (nameOf asciiEnv) (Table.run pasteHistory) where
  var := by
    intro id body h
    have := pasteHistory_defs h
    simp only [List.mem_cons, reduceCtorEq, false_or, Def.var.injEq, List.not_mem_nil, or_false] at this
    rcases this with rfl | rfl | rfl | rfl <;> exact ⟨by decide, by decide⟩
  fn := by
    intro id params body h
    have := pasteHistory_defs h
    simp only [List.mem_cons, reduceCtorEq, false_or, Def.fn.injEq, List.not_mem_nil, or_false] at this
    rcases this with ⟨rfl, rfl⟩ | ⟨rfl, rfl⟩ | ⟨rfl, rfl⟩ <;>
      exact ⟨by decide, by decide, _, .inl rfl, by decide, by decide +kernel⟩

theorem word_joins {a b : Str} (h : (a.all asciiEnv.xidContinue && b.all asciiEnv.xidContinue &&
    !a.isEmpty && !b.isEmpty) = true)
    (hv : a ≠ c!"__VA_ARGS__" ∧ b ≠ c!"__VA_ARGS__" ∧ a ++ b ≠ c!"__VA_ARGS__") :
    Spec.Joins asciiEnv.xidContinue a b := by
  simp only [Bool.and_eq_true, List.all_eq_true, Bool.not_eq_true', List.isEmpty_eq_false_iff] at h
  exact ⟨hv, .inl ⟨⟨h.1.2, h.1.1.1⟩, ⟨h.2, h.1.1.2⟩⟩⟩

theorem spelled_word {s : Str} (h : nameOf asciiEnv s = some s) (p : Bool) :
    Spec.SpelledAs (nameOf asciiEnv) (.name s p) s := .inl ⟨p, rfl, h⟩

/-- Text without `##` is not changed by pasting. -/
theorem pastes_toks {nm : Str → Option Str} {cont : Char → Bool} : ∀ l : List Item,
    Pastes nm cont (l.map .tok) l
  | [] => .nil
  | [_] => .tok (by simp) .nil
  | _ :: j :: l => .tok (by simp) (pastes_toks (j :: l))

theorem pastes_of {nm : Str → Option Str} {cont : Char → Bool} {es : List PElem} {l : List Item}
    (h : es = l.map .tok) : Pastes nm cont es l := h ▸ pastes_toks l

/-- No `##` in the body. -/
theorem no_paste {body : List Str} (h : c!"##" ∉ body) (s : Str) : ¬ Spec.NextToPaste body s := by
  rintro (hs | hs)
  · exact h (hs.subset (by simp))
  · exact h (hs.subset (by simp))

/-- A call of `CAT` with two arguments that are not macros, joined to `z`. -/
theorem cat_call {R : List Item → List Item → Prop} {H : List Str} {a b : Item}
    {a' b' mid out : List Item} (hH : c!"CAT" ∉ H) (ha : Spec.ArgText [a]) (hb : Spec.ArgText [b])
    (hea : Replaces R (nameOf asciiEnv) asciiEnv.xidContinue (Table.run pasteHistory) H [a] a')
    (heb : Replaces R (nameOf asciiEnv) asciiEnv.xidContinue (Table.run pasteHistory) H [b] b')
    (hR : R [a] a' ∧ R [b] b')
    (hp : Pastes (nameOf asciiEnv) asciiEnv.xidContinue [.tok a, .paste, .tok b] mid)
    (hm : Replaces R (nameOf asciiEnv) asciiEnv.xidContinue (Table.run pasteHistory) (c!"CAT" :: H)
      mid out) {rest out' : List Item}
    (hrest : Replaces R (nameOf asciiEnv) asciiEnv.xidContinue (Table.run pasteHistory) H rest out') :
    Replaces R (nameOf asciiEnv) asciiEnv.xidContinue (Table.run pasteHistory) H
      (.name c!"CAT" false :: .other c!"(" :: a :: .other c!"," :: b :: .other c!")" :: rest)
      (out ++ out') := by
  refine .call (args := [[a], [b]]) (args' := [a', b']) hH rfl (by decide) ⟨by simp, ?_, rfl⟩ (.inl rfl)
    (.cons hea (.cons heb .nil)) ?_ hp hm hrest
  · intro x hx
    simp only [List.mem_cons, List.not_mem_nil, or_false] at hx
    rcases hx with rfl | rfl
    · exact ha
    · exact hb
  · intro s x x' _ hs
    unfold argumentOf at hs
    simp only [Spec.paramIndex] at hs
    split at hs
    · rename_i i hi
      simp only [Option.some.injEq, Prod.mk.injEq] at hs
      obtain ⟨rfl, rfl⟩ := hs
      split at hi
      · simp only [Option.some.injEq] at hi; subst hi; exact hR.1
      · split at hi
        · simp only [Option.map_some, Option.some.injEq] at hi; subst hi; exact hR.2
        · simp at hi
    · simp at hs

/-- `MAKE ( 2 )`: the call of `CAT` makes the name `v2`, which is then replaced. -/
example : Returns (fun k => (MacroSet.run pasteHistory).expand asciiEnv k
    [c!"MAKE", c!"(", c!"2", c!")"]) (.ok [.lit (.int ⟨7, none⟩), .punct c!"+", .lit (.int ⟨2, none⟩)]) := by
  refine C86_paste_expands_partial asciiEnv asciiEnv_lawful pasteHistory pasteHistory_plain _
    (by decide) [.name c!"MAKE" false, .other c!"(", .other c!"2", .other c!")"]
    [.other c!"7", .other c!"+", .other c!"2"] _ ?_ ?_ (by decide +kernel)
  · exact pastes_of (by decide +kernel)
  · refine .call (args := [[.other c!"2"]]) (args' := [[.other c!"2"]]) (b := [.other c!"7", .other c!"+",
      .other c!"2"]) (mid := [.name c!"CAT" false, .other c!"(", .name c!"v" false, .other c!",",
        .other c!"2", .other c!")", .other c!"+", .other c!"2"]) (by simp) rfl (by decide)
      ⟨by simp, ?_, rfl⟩ (.inl rfl) (.cons (.other .nil) .nil) ?_ ?_ ?_ .nil
    · intro x hx
      simp only [List.mem_singleton] at hx
      subst hx
      exact argText_iff.2 (by decide)
    · exact fun s a a' hs => absurd hs (no_paste (by decide) s)
    · exact pastes_of (by decide +kernel)
    · refine cat_call (mid := [.name c!"v2" false]) (out := [.other c!"7"]) (by decide)
        (argText_iff.2 (by decide)) (argText_iff.2 (by decide)) (a' := [.name c!"v" false])
        (b' := [.other c!"2"]) (.undefined (by decide) (by decide) .nil) (.other .nil)
        ⟨⟨rfl, by simp⟩, ⟨rfl, by simp⟩⟩ ?_ ?_ (.other (.other .nil))
      · refine .join (a := c!"v") (b := c!"2") (spelled_word (by decide +kernel) _) (.inr rfl)
          (word_joins (by decide +kernel) (by decide)) ?_
        exact pastes_toks [.name c!"v2" false]
      · exact .object (by decide) rfl (pastes_toks [.other c!"7"]) (.other .nil) .nil

/-- `T` is `a ## b ## 3 + v2`. -/
example : Returns (fun k => (MacroSet.run pasteHistory).expandVar asciiEnv k c!"T")
    (.ok [.ident c!"ab3", .punct c!"+", .lit (.int ⟨7, none⟩)]) := by
  refine C86_paste_var_partial asciiEnv asciiEnv_lawful pasteHistory pasteHistory_plain c!"T" _ rfl
    [.name c!"ab3" false, .other c!"+", .name c!"v2" false]
    [.name c!"ab3" false, .other c!"+", .other c!"7"] _ ?_ ?_ (by decide +kernel)
  · refine .join (a := c!"a") (b := c!"b") (spelled_word (by decide +kernel) _)
      (spelled_word (by decide +kernel) _) (word_joins (by decide +kernel) (by decide)) ?_
    refine .join (a := c!"ab") (b := c!"3") (spelled_word (by decide +kernel) _) (.inr rfl)
      (word_joins (by decide +kernel) (by decide)) ?_
    exact pastes_toks [.name c!"ab3" false, .other c!"+", .name c!"v2" false]
  · exact .undefined (by decide) (by decide) (.other (.object (b := [.other c!"7"]) (by decide) rfl
      (pastes_toks [.other c!"7"]) (.other .nil) .nil))

/-- **C86** is false of the code (as C54 is): `CAT ( y , X )` should be `yX`, it is `y1`. -/
theorem C86_false : ¬ C86_statement := by
  intro hs
  have h := hs asciiEnv asciiEnv_lawful pasteHistory pasteHistory_plain
    [c!"CAT", c!"(", c!"y", c!",", c!"X", c!")"] (by decide) _ [.name c!"yX" false] [.ident c!"yX"]
    (pastes_toks [.name c!"CAT" false, .other c!"(", .name c!"y" false, .other c!",",
      .name c!"X" false, .other c!")"])
    (cat_call (mid := [.name c!"yX" false]) (out := [.name c!"yX" false]) (by decide)
      (argText_iff.2 (by decide)) (argText_iff.2 (by decide)) (.undefined (by decide) (by decide) .nil)
      (.object (by decide) rfl (pastes_toks [.other c!"1"]) (.other .nil) .nil) ⟨trivial, trivial⟩
      (.join (a := c!"y") (b := c!"X") (spelled_word (by decide +kernel) _)
        (spelled_word (by decide +kernel) _) (word_joins (by decide +kernel) (by decide))
        (pastes_toks [.name c!"yX" false]))
      (.undefined (by decide) (by decide) .nil) .nil) (by decide +kernel)
  have h' : Returns (fun k => (MacroSet.run pasteHistory).expand asciiEnv k
    [c!"CAT", c!"(", c!"y", c!",", c!"X", c!")"]) (.ok [.ident c!"y1"]) :=
    ⟨by simp, 9, by decide +kernel⟩
  have := expand_unique h h'
  revert this
  decide

/-- **C86** is also false where nothing in the arguments next to `##` is left to be replaced: an
empty argument next to `##` takes the mark off a name.  `G ( f )` should be `1 + f`, it is
`1 + 1 + f`. -/
theorem C86_false_marked : ¬ ExpandsAsWritten fun a a' => a' = a := by
  intro hs
  have hf : Replaces (fun a a' => a' = a) (nameOf asciiEnv) asciiEnv.xidContinue
      (Table.run pasteHistory) [] [.name c!"f" false] [.other c!"1", .other c!"+", .name c!"f" true] :=
    .object (b := [.other c!"1", .other c!"+", .name c!"f" true]) (by decide) rfl
      (pastes_of (l := [.other c!"1", .other c!"+", .name c!"f" false]) (by decide +kernel))
      (.other (.other (.hidden (by decide) .nil))) .nil
  have hg : Replaces (fun a a' => a' = a) (nameOf asciiEnv) asciiEnv.xidContinue
      (Table.run pasteHistory) [] [.name c!"G" false, .other c!"(", .name c!"f" false, .other c!")"]
      [.other c!"1", .other c!"+", .name c!"f" true] := by
    refine .call (args := [[.name c!"f" false]]) (args' := [[.other c!"1", .other c!"+",
        .name c!"f" true]]) (b := [.other c!"1", .other c!"+", .name c!"f" true])
      (mid := [.name c!"CAT" false, .other c!"(", .other c!"1", .other c!"+", .name c!"f" true,
        .other c!",", .other c!")"]) (by decide) rfl (by decide) ⟨by simp, ?_, rfl⟩ (.inl rfl)
      (.cons hf .nil) (fun s a a' hs => absurd hs (no_paste (by decide) s))
      (pastes_of (by decide +kernel)) ?_ .nil
    · intro x hx
      simp only [List.mem_singleton] at hx
      subst hx
      exact argText_iff.2 (by decide)
    · refine .call (args := [[.other c!"1", .other c!"+", .name c!"f" true], []])
        (args' := [[.other c!"1", .other c!"+", .name c!"f" true], []])
        (b := [.other c!"1", .other c!"+", .name c!"f" true])
        (mid := [.other c!"1", .other c!"+", .name c!"f" true]) (by decide) rfl (by decide)
        ⟨by simp, ?_, rfl⟩ (.inl rfl) (.cons (.other (.other (.painted .nil))) (.cons .nil .nil)) ?_ ?_
        (.other (.other (.painted .nil))) .nil
      · intro x hx
        simp only [List.mem_cons, List.not_mem_nil, or_false] at hx
        rcases hx with rfl | rfl <;> exact argText_iff.2 (by decide)
      · intro s a a' _ hs
        unfold argumentOf at hs
        split at hs
        · simp only [Option.some.injEq, Prod.mk.injEq] at hs
          exact hs.2.symm.trans hs.1
        · simp at hs
      · refine .tok (by decide +kernel) (.tok (by decide +kernel) (.markRight ?_
          (pastes_toks [.name c!"f" true])))
        intro s hs
        simp at hs
  have h := hs asciiEnv asciiEnv_lawful pasteHistory pasteHistory_plain
    [c!"G", c!"(", c!"f", c!")"] (by decide) _ _ [.lit (.int ⟨1, none⟩), .punct c!"+", .ident c!"f"]
    (pastes_of (by decide +kernel)) hg (by decide +kernel)
  have h' : Returns (fun k => (MacroSet.run pasteHistory).expand asciiEnv k
    [c!"G", c!"(", c!"f", c!")"]) (.ok [.lit (.int ⟨1, none⟩), .punct c!"+", .lit (.int ⟨1, none⟩),
      .punct c!"+", .ident c!"f"]) :=
    ⟨by simp, 12, by decide +kernel⟩
  have := expand_unique h h'
  revert this
  decide

end CMacro
