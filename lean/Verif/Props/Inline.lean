import Verif.Spec.Inline
import Verif.Props.Alias

/-!
# C113: writing out a macro by hand
-/

namespace CMacro
open Spec (Op Def Table Item Expands ExpandsAll Call Uses ArgText Balanced)

variable {E : Env} {nameOf' : Str → Option Str}

/-- The body `b` in place of the name `x`. -/
def inl (nameOf : Str → Option Str) (x : Str) (b : List Str) : Item → List Item
  | .name y false => if y = x then b.map (Spec.item nameOf) else [.name y false]
  | t => [t]

theorem inl_balanced {x : Str} {b : List Str} (hb : ArgText (b.map (Spec.item nameOf'))) {ts : List Item} (h : Balanced ts) :
    Balanced (ts.flatMap (inl nameOf' x b)) := by
  induction h with
  | nil => exact .nil
  | @name id p ts _ ih =>
    rw [List.flatMap_cons]
    refine balanced_append ?_ ih
    cases p with
    | true => exact .name .nil
    | false =>
      simp only [inl]
      split
      · exact argText_balanced hb
      · exact .name .nil
  | other h _ ih => exact .other h ih
  | group h _ _ ih1 ih2 =>
    have := Balanced.group h ih1 ih2
    simpa [List.flatMap_append, inl] using this

theorem inl_argText {x : Str} {b : List Str} (hb : ArgText (b.map (Spec.item nameOf'))) {ts : List Item} (h : ArgText ts) :
    ArgText (ts.flatMap (inl nameOf' x b)) := by
  induction h with
  | nil => exact .nil
  | @name id p ts _ ih =>
    rw [List.flatMap_cons]
    refine ArgText.append ?_ ih
    cases p with
    | true => exact .name .nil
    | false =>
      simp only [inl]
      split
      · exact hb
      · exact .name .nil
  | other h h' _ ih => exact .other h h' ih
  | group h hi _ ih =>
    have := ArgText.group h (inl_balanced (x := x) hb hi) ih
    simpa [List.flatMap_append, inl] using this

theorem inl_commaJoin {x : Str} {b : List Str} : ∀ as : List (List Item), (Spec.commaJoin as).flatMap (inl nameOf' x b) =
    Spec.commaJoin (as.map (List.flatMap (inl nameOf' x b)))
  | [] => rfl
  | [a] => rfl
  | a :: c :: as => by
    rw [Spec.commaJoin, List.flatMap_append, List.flatMap_cons, inl_commaJoin (c :: as)]
    · simp only [List.map_cons, inl]
      exact (Spec.commaJoin.eq_3 _ _ (by simp)).symm
    · simp

theorem inl_call {x : Str} {b : List Str} (hb : ArgText (b.map (Spec.item nameOf'))) {as : List (List Item)} {ts rest : List Item}
    (h : Call as ts rest) :
    Call (as.map (List.flatMap (inl nameOf' x b))) (ts.flatMap (inl nameOf' x b)) (rest.flatMap (inl nameOf' x b)) := by
  obtain ⟨h1, h2, rfl⟩ := h
  refine ⟨by simpa using h1, ?_, ?_⟩
  · intro a ha'
    obtain ⟨a', hm, rfl⟩ := List.mem_map.1 ha'
    exact inl_argText hb (h2 a' hm)
  · simp [List.flatMap_append, inl, inl_commaJoin]

/-- The body of a macro that does not use itself can be written in place of its name. -/
theorem expands_inl {D : Table} {x : Str} {b : List Str} (hd : D x = some (.var b)) (hb : ArgText (b.map (Spec.item nameOf')))
    (hu : ¬ Uses nameOf' D x x) {H : List Str} {ts out : List Item} (h : Expands nameOf' D H ts out) :
    x ∉ H → Expands nameOf' D H (ts.flatMap (inl nameOf' x b)) out := by
  refine Expands.rec
    (motive_1 := fun H ts out _ => x ∉ H → Expands nameOf' D H (ts.flatMap (inl nameOf' x b)) out)
    (motive_2 := fun H as as' _ => x ∉ H → ExpandsAll nameOf' D H (as.map (List.flatMap (inl nameOf' x b))) as')
    ?nil ?other ?painted ?hidden ?undefined ?object ?call ?callV ?anil ?acons h
  case nil => exact fun _ => .nil
  case other => exact fun _ ih hx => .other (ih hx)
  case painted => exact fun _ ih hx => .painted (ih hx)
  case hidden =>
    intro H id ts out hid _ ih hx
    have hne : id ≠ x := by rintro rfl; exact hx hid
    simpa [inl, hne] using Expands.hidden hid (ih hx)
  case undefined =>
    intro H id ts out hid hdn _ ih hx
    have hne : id ≠ x := by rintro rfl; rw [hd] at hdn; cases hdn
    simpa [inl, hne] using Expands.undefined hid hdn (ih hx)
  case object =>
    intro H id body o ts out hid hdi hbody _ _ ih hx
    by_cases he : id = x
    · subst he
      rw [hd] at hdi
      cases hdi
      have h1 : Expands nameOf' D H (b.map (Spec.item nameOf')) o := by
        refine (expands_hide (T := fun y => Uses nameOf' D id y) ?_ hbody H ?_ ?_).1
        · exact fun i d w y hi hd' hw hy => .trans hi (.word hd' hw hy)
        · intro i hi
          have : i ≠ id := by rintro rfl; exact hu hi
          simp [this]
        · intro i p hm
          obtain ⟨s, hs, hi⟩ := List.mem_map.1 hm
          refine .word hd (w := s) hs ?_
          unfold Spec.item at hi
          split at hi
          · next y hy => injection hi with h1 _; rw [hy, h1]
          · cases hi
      rw [List.flatMap_cons]
      simp only [inl, if_true]
      exact Expands.append' h1 (ih hx)
    · rw [List.flatMap_cons]
      simp only [inl, if_neg he]
      exact .object hid hdi hbody (ih hx)
  case call =>
    intro H id ps body as as' o ts rest out hid hdi hell hc har _ hbody _ iha _ ih hx
    have hne : id ≠ x := by rintro rfl; rw [hd] at hdi; cases hdi
    rw [List.flatMap_cons]
    simp only [inl, if_neg hne]
    refine .call hid hdi hell (inl_call hb hc) ?_ (iha hx) hbody (ih hx)
    rcases har with h | ⟨h, h'⟩
    · exact .inl (by simpa using h)
    · exact .inr ⟨h, by simp [h']⟩
  case callV =>
    intro H id ps body as as' va o ts rest out hid hdi hell hc hlen _ _ hbody _ iha ihva _ ih hx
    have hne : id ≠ x := by rintro rfl; rw [hd] at hdi; cases hdi
    have hva := ihva hx
    have h1 := iha hx
    rw [inl_commaJoin, List.map_drop] at hva
    rw [List.map_take] at h1
    rw [List.flatMap_cons]
    simp only [inl, if_neg hne]
    exact .callVariadic hid hdi hell (inl_call hb hc) (by simpa using hlen) h1 hva hbody (ih hx)
  case anil => exact fun _ => .nil
  case acons => exact fun _ _ h1 h2 hx => .cons (h1 hx) (h2 hx)

/-- The definitions of hidden macros make no difference. -/
theorem expands_hidden_defs {D D' : Table} {H : List Str} {ts out : List Item} (h : Expands nameOf' D H ts out) :
    (∀ y, y ∉ H → D' y = D y) → Expands nameOf' D' H ts out := by
  have ext : ∀ {H : List Str} {id : Str}, (∀ y, y ∉ H → D' y = D y) → ∀ y, y ∉ id :: H → D' y = D y :=
    fun h y hy => h y fun hm => hy (List.mem_cons_of_mem _ hm)
  refine Expands.rec
    (motive_1 := fun H ts out _ => (∀ y, y ∉ H → D' y = D y) → Expands nameOf' D' H ts out)
    (motive_2 := fun H as as' _ => (∀ y, y ∉ H → D' y = D y) → ExpandsAll nameOf' D' H as as')
    ?nil ?other ?painted ?hidden ?undefined ?object ?call ?callV ?anil ?acons h
  case nil => exact fun _ => .nil
  case other => exact fun _ ih hD => .other (ih hD)
  case painted => exact fun _ ih hD => .painted (ih hD)
  case hidden => exact fun hid _ ih hD => .hidden hid (ih hD)
  case undefined => exact fun hid hd _ ih hD => .undefined hid ((hD _ hid).trans hd) (ih hD)
  case object => exact fun hid hd _ _ ihb ih hD => .object hid ((hD _ hid).trans hd) (ihb (ext hD)) (ih hD)
  case call =>
    exact fun hid hd hell hc har _ _ _ iha ihb ih hD => .call hid ((hD _ hid).trans hd) hell hc har (iha hD) (ihb (ext hD)) (ih hD)
  case callV =>
    exact fun hid hd hell hc hl _ _ _ _ iha ihva ihb ih hD =>
      .callVariadic hid ((hD _ hid).trans hd) hell hc hl (iha hD) (ihva hD) (ihb (ext hD)) (ih hD)
  case anil => exact fun _ => .nil
  case acons => exact fun _ _ h1 h2 hD => .cons (h1 hD) (h2 hD)

theorem writeOut_items {x : Str} {b : List Str} : ∀ ws : List Str,
    (Spec.writeOut nameOf' x b ws).map (Spec.item nameOf') = (ws.map (Spec.item nameOf')).flatMap (inl nameOf' x b)
  | [] => rfl
  | w :: ws => by
    have ih := writeOut_items (x := x) (b := b) ws
    simp only [Spec.writeOut, List.flatMap_cons, List.map_append, List.map_cons] at ih ⊢
    rw [ih]
    congr 1
    unfold Spec.item
    cases hw : nameOf' w with
    | none => simp [inl, hw]
    | some y =>
      by_cases he : y = x
      · simp only [he, if_true, inl]; rfl
      · simp [inl, he, hw]

theorem writeOut_open {x : Str} {b xs : List Str} (hx : ∀ p ∈ xs, nameOf' p ≠ some x) (hb : ∀ w ∈ b, w ∉ xs) : ∀ ws : List Str,
    Spec.openBody nameOf' xs (Spec.writeOut nameOf' x b ws) = (Spec.openBody nameOf' xs ws).flatMap (inl nameOf' x b)
  | [] => rfl
  | w :: ws => by
    have ih := writeOut_open hx hb ws
    have e : b.map (fun s => if s ∈ xs then Item.other s else Spec.item nameOf' s) = b.map (Spec.item nameOf') :=
      List.map_congr_left fun s hs => if_neg (hb s hs)
    simp only [Spec.writeOut, Spec.openBody, List.flatMap_cons, List.map_append, List.map_cons] at ih ⊢
    rw [ih]
    congr 1
    by_cases hm : w ∈ xs
    · rw [if_neg (hx w hm), if_pos hm]
      simp [hm, inl]
    · rw [if_neg hm]
      unfold Spec.item
      cases hw : nameOf' w with
      | none => simp [inl, hm, Spec.item, hw]
      | some y =>
        by_cases he : y = x
        · simp only [he, if_true, inl]; exact e
        · simp [inl, he, hm, Spec.item, hw]

theorem writeOut_mem {x : Str} {b ws : List Str} {w : Str} (h : w ∈ Spec.writeOut nameOf' x b ws) : w ∈ b ∨ w ∈ ws := by
  obtain ⟨v, hv, hw⟩ := List.mem_flatMap.1 h
  split at hw
  · exact .inl hw
  · obtain rfl := List.mem_singleton.1 hw; exact .inr hv

/-- What the textbook rules say determines the result for a text. -/
theorem expand_runs (L : E.Lawful) {h : List Op} (hP : Spec.Plain (nameOf E) (Table.run h)) {ws : List Str} (hw : PlainInput ws) {out : List Item}
    (hx : Expands (nameOf E) (Table.run h) [] (ws.map (Spec.item (nameOf E))) out) :
    Returns (fun k => (MacroSet.run h).expand E k ws) (detokenize 0 (out.map (tokOf E))) := by
  obtain ⟨_, _, h3⟩ := expands_good L (agrees_run h) hP hx _ sameHidden_top hw.ok
  obtain ⟨N, hN⟩ := h3.nil_pre
  refine ⟨detokenize_ne_diverge _ _, N, ?_⟩
  simp only [MacroSet.expand, expandVarMacroBody_plain hw, hN N (Nat.le_refl _)]

theorem writeOut_plain {x : Str} {b ws : List Str} (hb : PlainInput b) (hw : PlainInput ws) : PlainInput (Spec.writeOut nameOf' x b ws) :=
  ⟨fun s hs => (writeOut_mem hs).elim (hb.1 s) (hw.1 s), fun hm => (writeOut_mem hm).elim hb.2 hw.2⟩

/-- **C113**: let `#define x b`, where `b` has matching brackets and no comma outside of them, and does not lead back to `x`.  If the textbook
rules expand a text, then the text with `b` written in place of `x` has the same expansion, or the same error is reported. -/
theorem C113_text (E : Env) (L : E.Lawful) (h : List Op) (hP : Spec.Plain (nameOf E) (Table.run h)) (x : Str) (b : List Str)
    (hd : Table.run h x = some (.var b)) (hb : ArgText (b.map (Spec.item (nameOf E)))) (hu : ¬ Uses (nameOf E) (Table.run h) x x)
    (text : List Str) (ht : PlainInput text) (out : List Item)
    (hx : Expands (nameOf E) (Table.run h) [] (text.map (Spec.item (nameOf E))) out) :
    ∃ r, Returns (fun k => (MacroSet.run h).expand E k text) r ∧
      Returns (fun k => (MacroSet.run h).expand E k (Spec.writeOut (nameOf E) x b text)) r := by
  have h2 := expands_inl hd hb hu hx (by simp)
  rw [← writeOut_items] at h2
  exact ⟨_, expand_runs L hP ht hx, expand_runs L hP (writeOut_plain (hP.var x b hd) ht) h2⟩

/-- The same for the definition of a variable-like macro: two headers that differ in the definition of `n` only, and in `h'` the body `b` is
written in place of `x` there. -/
theorem C113_var (E : Env) (L : E.Lawful) (h h' : List Op) (hP : Spec.Plain (nameOf E) (Table.run h))
    (hP' : Spec.Plain (nameOf E) (Table.run h')) (x n : Str) (b body : List Str) (hne : x ≠ n)
    (hd : Table.run h x = some (.var b)) (hb : ArgText (b.map (Spec.item (nameOf E)))) (hu : ¬ Uses (nameOf E) (Table.run h) x x)
    (hn : Table.run h n = some (.var body)) (hn' : Table.run h' n = some (.var (Spec.writeOut (nameOf E) x b body)))
    (hsame : ∀ y, y ≠ n → Table.run h' y = Table.run h y) (out : List Item)
    (hx : Expands (nameOf E) (Table.run h) [n] (body.map (Spec.item (nameOf E))) out) :
    ∃ r, Returns (fun k => (MacroSet.run h).expandVar E k n) r ∧ Returns (fun k => (MacroSet.run h').expandVar E k n) r := by
  have h2 := expands_inl hd hb hu hx (by simpa using hne)
  rw [← writeOut_items] at h2
  have h3 := expands_hidden_defs (D' := Table.run h') h2 (fun y hy => hsame y (by simpa using hy))
  have run : ∀ {h : List Op} {bd : List Str}, Spec.Plain (nameOf E) (Table.run h) → Table.run h n = some (.var bd) →
      Expands (nameOf E) (Table.run h) [n] (bd.map (Spec.item (nameOf E))) out →
      Returns (fun k => (MacroSet.run h).expandVar E k n) (detokenize 0 (out.map (tokOf E))) := by
    intro h bd hP hd hx
    have hb' : PlainInput bd := hP.var n bd hd
    have hS : SameHidden (setInsert [] n) [n] := by
      intro id hid; simp [setInsert]
    obtain ⟨_, _, h3⟩ := expands_good L (agrees_run h) hP hx _ hS hb'.ok
    obtain ⟨N, hN⟩ := h3.nil_pre
    have hv : (MacroSet.run h).var.get n = some bd := by rw [(agrees_run h n).1, hd]
    refine ⟨detokenize_ne_diverge _ _, N, ?_⟩
    simp only [MacroSet.expandVar, hv, expandVarMacroBody_plain hb', hN N (Nat.le_refl _)]
  exact ⟨_, run hP hn hx, run hP' hn' h3⟩

/-- The same for the definition of a function-like macro whose parameters do not occur in `b`. -/
theorem C113_fn (E : Env) (L : E.Lawful) (h h' : List Op) (hP : Spec.Plain (nameOf E) (Table.run h))
    (hP' : Spec.Plain (nameOf E) (Table.run h')) (x n : Str) (b xs body : List Str) (variadic : Bool) (hne : x ≠ n) (hell : c!"..." ∉ xs)
    (hd : Table.run h x = some (.var b)) (hb : ArgText (b.map (Spec.item (nameOf E)))) (hu : ¬ Uses (nameOf E) (Table.run h) x x)
    (hn : Table.run h n = some (.fn (xs ++ if variadic then [c!"..."] else []) body))
    (hn' : Table.run h' n = some (.fn (xs ++ if variadic then [c!"..."] else []) (Spec.writeOut (nameOf E) x b body)))
    (hsame : ∀ y, y ≠ n → Table.run h' y = Table.run h y) (hxs : ∀ p ∈ xs, nameOf E p ≠ some x) (hbx : ∀ w ∈ b, w ∉ xs) (out : List Item)
    (hx : Expands (nameOf E) (Table.run h) [n] (Spec.openBody (nameOf E) xs body) out) :
    ∃ r, Returns (fun k => (MacroSet.run h).expandFn E k n) r ∧ Returns (fun k => (MacroSet.run h').expandFn E k n) r := by
  have h2 := expands_inl hd hb hu hx (by simpa using hne)
  rw [← writeOut_open hxs hbx] at h2
  have h3 := expands_hidden_defs (D' := Table.run h') h2 (fun y hy => hsame y (by simpa using hy))
  obtain ⟨P, N, hPn, _, _, hN⟩ := expandFn_runs L (agrees_run h) hP hn hell hx
  obtain ⟨Q, M, hQn, _, _, hM⟩ := expandFn_runs L (agrees_run h') hP' hn' hell h3
  have ht : tokIn Q = tokIn P := by
    funext t
    cases t with
    | name id p => cases p <;> rfl
    | other s => simp only [tokIn, hPn, hQn]
  rw [ht] at hM
  refine ⟨_, ⟨?_, N, hN⟩, ?_, M, hM⟩
  all_goals
    split
    · next e he =>
      intro h
      cases h
      exact detokenize_ne_diverge _ _ he
    · simp

/-! ## Examples -/

theorem limit_unused : ¬ Uses (nameOf asciiEnv) (Table.run clampHistory) c!"LIMIT" c!"LIMIT" := by
  intro h
  have : ∀ {x y}, Uses (nameOf asciiEnv) (Table.run clampHistory) x y → x ≠ c!"LIMIT" := by
    intro x y h
    induction h with
    | @word x d w y hd hw hy =>
      rintro rfl
      obtain rfl : d = .var [c!"100"] := by
        have : Table.run clampHistory c!"LIMIT" = some (.var [c!"100"]) := rfl
        rw [this] at hd
        cases hd
        rfl
      obtain rfl := List.mem_singleton.1 hw
      have : nameOf asciiEnv c!"100" = none := by decide +kernel
      rw [this] at hy
      cases hy
    | trans _ _ ih _ => exact ih
  exact this h rfl

theorem hundred_item : [c!"100"].map (Spec.item (nameOf asciiEnv)) = [.other c!"100"] := by decide +kernel

/-- `LIMIT + LIMIT` and `100 + 100`. -/
example : ∃ r, Returns (fun k => (MacroSet.run clampHistory).expand asciiEnv k [c!"LIMIT", c!"+", c!"LIMIT"]) r ∧
    Returns (fun k => (MacroSet.run clampHistory).expand asciiEnv k [c!"100", c!"+", c!"100"]) r := by
  have e : Spec.writeOut (nameOf asciiEnv) c!"LIMIT" [c!"100"] [c!"LIMIT", c!"+", c!"LIMIT"] = [c!"100", c!"+", c!"100"] := by decide +kernel
  rw [← e]
  refine C113_text asciiEnv asciiEnv_lawful clampHistory clampHistory_plain c!"LIMIT" [c!"100"] rfl ?_ limit_unused _ ⟨by decide, by decide⟩
    [.other c!"100", .other c!"+", .other c!"100"] ?_
  · rw [hundred_item]; exact argText_iff.2 (by decide)
  · rw [show [c!"LIMIT", c!"+", c!"LIMIT"].map (Spec.item (nameOf asciiEnv)) = [.name c!"LIMIT" false, .other c!"+", .name c!"LIMIT" false] from
      by decide +kernel]
    exact .object (b := [.other c!"100"]) (by decide) rfl (hundred_item ▸ .other .nil)
      (.other (.object (b := [.other c!"100"]) (out := []) (by decide) rfl (hundred_item ▸ .other .nil) .nil))

/-- The header `clampHistory`, with `100` in place of `LIMIT` in the definition of `CLAMP`. -/
def clampHistory' : List Op :=
  [.defineVar c!"LIMIT" [c!"100"],
   .defineFn c!"MAX" [c!"a", c!"b"] [c!"(", c!"a", c!">", c!"b", c!"?", c!"a", c!":", c!"b", c!")"],
   .defineFn c!"CLAMP" [c!"x"] [c!"MAX", c!"(", c!"x", c!",", c!"100", c!")", c!"+", c!"CLAMP"]]

/-- `CLAMP` is the same. -/
example : ∃ r, Returns (fun k => (MacroSet.run clampHistory).expandFn asciiEnv k c!"CLAMP") r ∧
    Returns (fun k => (MacroSet.run clampHistory').expandFn asciiEnv k c!"CLAMP") r := by
  refine C113_fn asciiEnv asciiEnv_lawful clampHistory clampHistory' clampHistory_plain (plain_of_check (by decide +kernel)) c!"LIMIT" c!"CLAMP"
    [c!"100"] [c!"x"] [c!"MAX", c!"(", c!"x", c!",", c!"LIMIT", c!")", c!"+", c!"CLAMP"] false (by decide) (by decide) rfl ?_ limit_unused rfl
    (by decide +kernel) ?_ (by decide +kernel) (by decide)
    [.other c!"(", .other c!"x", .other c!">", .other c!"100", .other c!"?", .other c!"x", .other c!":", .other c!"100",
      .other c!")", .other c!"+", .name c!"CLAMP" true] ?_
  · rw [hundred_item]; exact argText_iff.2 (by decide)
  · intro y hy
    simp only [clampHistory, clampHistory', Table.run, List.foldl, Table.step, Table.set, if_neg hy]
  rw [show Spec.openBody (nameOf asciiEnv) [c!"x"] [c!"MAX", c!"(", c!"x", c!",", c!"LIMIT", c!")", c!"+", c!"CLAMP"] =
    [.name c!"MAX" false, .other c!"(", .other c!"x", .other c!",", .name c!"LIMIT" false, .other c!")", .other c!"+",
      .name c!"CLAMP" false] from by decide +kernel]
  refine .call (args := [[.other c!"x"], [.name c!"LIMIT" false]]) (args' := [[.other c!"x"], [.other c!"100"]])
    (rest := [.other c!"+", .name c!"CLAMP" false])
    (b := [.other c!"(", .other c!"x", .other c!">", .other c!"100", .other c!"?", .other c!"x", .other c!":", .other c!"100",
      .other c!")"]) (out := [.other c!"+", .name c!"CLAMP" true]) (by decide) rfl (by decide) (call_of_check (by decide)) (.inl rfl)
    (.cons (.other .nil) (.cons (.object (b := [.other c!"100"]) (out := []) (by decide) rfl (hundred_item ▸ .other .nil) .nil) .nil)) ?_
    (.other (.hidden (by decide) .nil))
  rw [show Spec.subst (nameOf asciiEnv) [c!"a", c!"b"] [[.other c!"x"], [.other c!"100"]] none
    [c!"(", c!"a", c!">", c!"b", c!"?", c!"a", c!":", c!"b", c!")"] = [.other c!"(", .other c!"x", .other c!">", .other c!"100",
      .other c!"?", .other c!"x", .other c!":", .other c!"100", .other c!")"] from by decide +kernel]
  exact .other (.other (.other (.other (.other (.other (.other (.other (.other .nil))))))))

/-- `#define LIMIT 100` and `#define TWICE LIMIT + LIMIT`, or `#define TWICE 100 + 100`. -/
example : ∃ r, Returns (fun k => (MacroSet.run (clampHistory ++ [.defineVar c!"TWICE" [c!"LIMIT", c!"+", c!"LIMIT"]])).expandVar asciiEnv k c!"TWICE") r ∧
    Returns (fun k => (MacroSet.run (clampHistory ++ [.defineVar c!"TWICE" [c!"100", c!"+", c!"100"]])).expandVar asciiEnv k c!"TWICE") r := by
  refine C113_var asciiEnv asciiEnv_lawful _ _ (plain_of_check (by decide +kernel)) (plain_of_check (by decide +kernel)) c!"LIMIT" c!"TWICE"
    [c!"100"] [c!"LIMIT", c!"+", c!"LIMIT"] (by decide) rfl ?_ ?_ rfl (by decide +kernel) ?_ [.other c!"100", .other c!"+", .other c!"100"] ?_
  · rw [hundred_item]; exact argText_iff.2 (by decide)
  · intro h
    have key : ∀ {x y}, Uses (nameOf asciiEnv) (Table.run (clampHistory ++ [.defineVar c!"TWICE" [c!"LIMIT", c!"+", c!"LIMIT"]])) x y →
        x ≠ c!"LIMIT" := by
      intro x y h
      induction h with
      | @word x d w y hd hw hy =>
        rintro rfl
        have h1 : Table.run (clampHistory ++ [.defineVar c!"TWICE" [c!"LIMIT", c!"+", c!"LIMIT"]]) c!"LIMIT" = some (.var [c!"100"]) := rfl
        rw [h1] at hd
        cases hd
        obtain rfl := List.mem_singleton.1 hw
        have : nameOf asciiEnv c!"100" = none := by decide +kernel
        rw [this] at hy
        cases hy
      | trans _ _ ih _ => exact ih
    exact key h rfl
  · intro y hy
    simp only [clampHistory, Table.run, List.foldl, List.cons_append, List.nil_append, Table.step, Table.set, if_neg hy]
  · rw [show [c!"LIMIT", c!"+", c!"LIMIT"].map (Spec.item (nameOf asciiEnv)) = [.name c!"LIMIT" false, .other c!"+", .name c!"LIMIT" false] from
      by decide +kernel]
    exact .object (b := [.other c!"100"]) (by decide) rfl (hundred_item ▸ .other .nil)
      (.other (.object (b := [.other c!"100"]) (out := []) (by decide) rfl (hundred_item ▸ .other .nil) .nil))

/-- A comma must be in brackets: with `#define PAIR 1, 2` and `#define FST(a) a`, `FST(PAIR)` is `1, 2`, but `FST(1, 2)` is an error. -/
theorem C113_restriction_needed :
    Returns (fun k => (MacroSet.run [.defineVar c!"PAIR" [c!"1", c!",", c!"2"], .defineFn c!"FST" [c!"a"] [c!"a"]]).expand asciiEnv k
      [c!"FST", c!"(", c!"PAIR", c!")"]) (.ok [.lit (.int ⟨1, none⟩), .punct c!",", .lit (.int ⟨2, none⟩)]) ∧
    Returns (fun k => (MacroSet.run [.defineVar c!"PAIR" [c!"1", c!",", c!"2"], .defineFn c!"FST" [c!"a"] [c!"a"]]).expand asciiEnv k
      [c!"FST", c!"(", c!"1", c!",", c!"2", c!")"]) (.error (.err (.fnMacroArgument c!"FST" 1 2))) :=
  ⟨⟨by simp, 6, by decide +kernel⟩, ⟨by simp, 6, by decide +kernel⟩⟩

end CMacro
