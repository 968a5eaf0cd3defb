import Verif.Props.Calls
import Verif.Props.ReadToken

/-!
# Property C105: invalid tokens are reported, the first one by name
-/

namespace CMacro
open Spec (Op Def Table Item Expands TokenRead)

variable {E : Env}

/-- The items of an expansion are read as the tokens `toks`, one by one. -/
inductive Spec.ItemsRead (E : Env) : List Item → List MacroToken → Prop
  | nil : ItemsRead E [] []
  | name {id p is ms} : ItemsRead E is ms → ItemsRead E (.name id p :: is) (.ident id :: ms)
  | other {s m is ms} : TokenRead E s m → ItemsRead E is ms → ItemsRead E (.other s :: is) (m :: ms)

/-- The first item that is no token is the text `s`. -/
def Spec.FirstInvalid (E : Env) (out : List Item) (s : Str) : Prop :=
  ∃ a b toks, out = a ++ .other s :: b ∧ ItemsRead E a toks ∧ ∀ m, ¬ TokenRead E s m

/-- No item is `__VA_ARGS__`. -/
def NoVarArgs (out : List Item) : Prop := Item.other c!"__VA_ARGS__" ∉ out

theorem results_itemsRead (L : E.Lawful) : ∀ {out : List Item} {toks : List MacroToken},
    NoVarArgs out → (results E out = some toks ↔ Spec.ItemsRead E out toks) := by
  intro out
  induction out with
  | nil =>
    intro toks _
    simp only [results, Option.some.injEq]
    constructor
    · rintro rfl; exact .nil
    · intro h; cases h; rfl
  | cons i is ih =>
    intro toks hv
    have hv' : NoVarArgs is := fun h => hv (List.mem_cons_of_mem _ h)
    cases i with
    | name id p =>
      constructor
      · intro h
        simp only [results, itemResult] at h
        cases hr : results E is with
        | none => rw [hr] at h; simp at h
        | some ms =>
          rw [hr] at h
          simp only [Option.some.injEq] at h
          rw [← h]
          exact .name ((ih hv').1 hr)
      · intro h
        cases h with
        | name h => simp only [results, itemResult, (ih hv').2 h]
    | other s =>
      have hs : s ≠ c!"__VA_ARGS__" := by rintro rfl; exact hv List.mem_cons_self
      constructor
      · intro h
        simp only [results, itemResult] at h
        cases hc : classify E s with
        | none => rw [hc] at h; simp at h
        | some m =>
          cases hr : results E is with
          | none => rw [hc, hr] at h; simp at h
          | some ms =>
            rw [hc, hr] at h
            simp only [Option.some.injEq] at h
            rw [← h]
            exact .other ((C104_tokens E L s hs m).1 hc) ((ih hv').1 hr)
      · intro h
        cases h with
        | other h1 h2 => simp only [results, itemResult, (ih hv').2 h2, (C104_tokens E L s hs _).2 h1]

theorem itemsRead_or_first (L : E.Lawful) : ∀ {out : List Item}, NoVarArgs out →
    (∃ toks, Spec.ItemsRead E out toks) ∨ ∃ s, Spec.FirstInvalid E out s := by
  intro out
  induction out with
  | nil => intro _; exact .inl ⟨[], .nil⟩
  | cons i is ih =>
    intro hv
    have hv' : NoVarArgs is := fun h => hv (List.mem_cons_of_mem _ h)
    have step : ∀ m, (∀ a ms, Spec.ItemsRead E a ms → Spec.ItemsRead E (i :: a) (m :: ms)) →
        (∃ toks, Spec.ItemsRead E (i :: is) toks) ∨ ∃ s, Spec.FirstInvalid E (i :: is) s := by
      intro m hm
      rcases ih hv' with ⟨toks, h⟩ | ⟨s, a, b, toks, rfl, h2, h3⟩
      · exact .inl ⟨_, hm _ _ h⟩
      · exact .inr ⟨s, i :: a, b, _, rfl, hm _ _ h2, h3⟩
    cases i with
    | name id p => exact step (.ident id) fun _ _ h => .name h
    | other s =>
      by_cases hs : ∃ m, TokenRead E s m
      · obtain ⟨m, hm⟩ := hs
        exact step m fun _ _ h => .other hm h
      · exact .inr ⟨s, [], is, [], rfl, .nil, fun m hm => hs ⟨m, hm⟩⟩

theorem fromStr_invalid (L : E.Lawful) {s : Str} (hs : s ≠ c!"__VA_ARGS__")
    (h : ∀ m, ¬ TokenRead E s m) : Token.fromStr E s = .plain s := by
  have hc : classify E s = none := by
    cases hc : classify E s with
    | none => rfl
    | some m => exact absurd ((C104_tokens E L s hs m).1 hc) (h m)
  revert hc
  unfold classify Token.fromStr
  rw [if_neg hs]
  repeat' split
  all_goals first
    | (intro hc; simp_all [Token.detokenize]; done)
    | rfl
    | (intro _; rfl)

theorem detokenize_invalid (L : E.Lawful) {out : List Item} {s : Str} (hv : NoVarArgs out)
    (h : Spec.FirstInvalid E out s) :
    detokenize 0 (out.map (tokOf E)) = .error (.err (.invalidToken s)) := by
  obtain ⟨a, b, toks, rfl, h1, h2⟩ := h
  have hs : s ≠ c!"__VA_ARGS__" := by rintro rfl; exact hv (by simp)
  have hbad : (tokOf E (.other s)).detokenize 0 = .error (.err (.invalidToken s)) := by
    show (Token.fromStr E s).detokenize 0 = _
    rw [fromStr_invalid L hs h2]
    rfl
  have ha : NoVarArgs a := fun h => hv (by simp [h])
  clear hv
  induction h1 with
  | nil => simp only [List.nil_append, List.map_cons, detokenize, hbad]; rfl
  | @name id p is ms _ ih =>
    have : (tokOf E (.name id p)).detokenize 0 = .ok (some (.ident id)) := by cases p <;> rfl
    simp only [List.cons_append, List.map_cons, detokenize, this,
      ih (fun h => ha (List.mem_cons_of_mem _ h))]
    rfl
  | @other x m is ms hx _ ih =>
    have hx' : x ≠ c!"__VA_ARGS__" := by rintro rfl; exact ha List.mem_cons_self
    have : (tokOf E (.other x)).detokenize 0 = .ok (some m) :=
      classify_some ((C104_tokens E L x hx' m).2 hx)
    simp only [List.cons_append, List.map_cons, detokenize, this,
      ih (fun h => ha (List.mem_cons_of_mem _ h))]
    rfl

theorem expands_noVarArgs {D : Table} (hP : Spec.Plain (nameOf E) D) {H : List Str} {ts : List Str}
    (hts : PlainInput ts) {out : List Item}
    (h : Expands (nameOf E) D H (ts.map (Spec.item (nameOf E))) out) : NoVarArgs out := by
  have item_ne : ∀ s : Str, s ≠ c!"__VA_ARGS__" → Spec.item (nameOf E) s ≠ .other c!"__VA_ARGS__" := by
    intro s hs h
    unfold Spec.item at h
    split at h
    · simp at h
    · simp only [Item.other.injEq] at h; exact hs h
  have key := expands_inv (fun t => t ≠ .other c!"__VA_ARGS__") (by simp) (by decide) ?_ ?_ h ?_
  · intro hm; exact key _ hm rfl
  · intro id d hd s hs
    by_cases hva : s = c!"__VA_ARGS__"
    · cases d with
      | var b => exact absurd (hva ▸ hs) (hP.var id b hd).2
      | fn p b => exact .inr ⟨p, b, rfl, hva⟩
    · exact .inl (item_ne s hva)
  · intro id p b hd hva
    exact (hP.fn id p b hd).2.1 hva
  · intro t ht
    obtain ⟨s, hs, rfl⟩ := List.mem_map.1 ht
    exact item_ne s (fun he => hts.2 (he ▸ hs))

/-- Exactly one of the two outcomes holds, and the call has it. -/
theorem outcome_exact {call : Nat → Res (List MacroToken)} {out : List Item} (L : E.Lawful)
    (uniq : ∀ r r', Returns call r → Returns call r' → r = r') (hv : NoVarArgs out)
    (hcall : ∀ r, detokenize 0 (out.map (tokOf E)) = r → r ≠ .error .diverge → Returns call r) :
    (∀ toks, Returns call (.ok toks) ↔ Spec.ItemsRead E out toks) ∧
    ∀ s, Returns call (.error (.err (.invalidToken s))) ↔ Spec.FirstInvalid E out s := by
  have h1 : ∀ toks, Spec.ItemsRead E out toks → Returns call (.ok toks) := fun toks h =>
    hcall _ (detokenize_tok ((results_itemsRead L hv).2 h)) (by simp)
  have h2 : ∀ s, Spec.FirstInvalid E out s → Returns call (.error (.err (.invalidToken s))) :=
    fun s h => hcall _ (detokenize_invalid L hv h) (by simp)
  refine ⟨fun toks => ⟨fun h => ?_, h1 toks⟩, fun s => ⟨fun h => ?_, h2 s⟩⟩
  · rcases itemsRead_or_first L hv with ⟨toks', h'⟩ | ⟨s, h'⟩
    · have := uniq _ _ h (h1 _ h')
      simp only [Except.ok.injEq] at this
      rw [this]; exact h'
    · have := uniq _ _ h (h2 _ h'); simp at this
  · rcases itemsRead_or_first L hv with ⟨toks', h'⟩ | ⟨s', h'⟩
    · have := uniq _ _ h (h1 _ h'); simp at this
    · have := uniq _ _ h (h2 _ h')
      simp only [Except.error.injEq, Fail.err.injEq, ExpansionError.invalidToken.injEq] at this
      rw [this]; exact h'

/-! ## C105 -/

/-- **C105**: if a text expands to `out` by the textbook rules, `expand` returns tokens exactly
when all of `out` are tokens, and these; otherwise it reports the first item that is none. -/
theorem C105_expand (E : Env) (L : E.Lawful) (h : List Op)
    (hP : Spec.Plain (nameOf E) (Table.run h)) (ts : List Str) (hts : PlainInput ts) (out : List Item)
    (hx : Expands (nameOf E) (Table.run h) [] (ts.map (Spec.item (nameOf E))) out) :
    (∀ toks, Returns (fun k => (MacroSet.run h).expand E k ts) (.ok toks) ↔
      Spec.ItemsRead E out toks) ∧
    ∀ s, Returns (fun k => (MacroSet.run h).expand E k ts) (.error (.err (.invalidToken s))) ↔
      Spec.FirstInvalid E out s := by
  refine outcome_exact L (fun r r' => expand_unique) (expands_noVarArgs hP hts hx) ?_
  intro r hr hd
  obtain ⟨_, _, h3⟩ := expands_good L (agrees_run h) hP hx _ sameHidden_top hts.ok
  obtain ⟨N, hN⟩ := h3.nil_pre
  refine ⟨hd, N, ?_⟩
  simp only [MacroSet.expand, expandVarMacroBody_plain hts, hN N (Nat.le_refl _)]
  exact hr

/-- **C105** for `expand_var_macro`. -/
theorem C105_expand_var (E : Env) (L : E.Lawful) (h : List Op)
    (hP : Spec.Plain (nameOf E) (Table.run h)) (n : Str) (b : List Str)
    (hn : Table.run h n = some (.var b)) (out : List Item)
    (hx : Expands (nameOf E) (Table.run h) [n] (b.map (Spec.item (nameOf E))) out) :
    (∀ toks, Returns (fun k => (MacroSet.run h).expandVar E k n) (.ok toks) ↔
      Spec.ItemsRead E out toks) ∧
    ∀ s, Returns (fun k => (MacroSet.run h).expandVar E k n) (.error (.err (.invalidToken s))) ↔
      Spec.FirstInvalid E out s := by
  have hb : PlainInput b := hP.var n b hn
  refine outcome_exact L (fun r r' a b => a.unique (fun _ _ hnm => expandVar_le E _ hnm n) b) (expands_noVarArgs hP hb hx) ?_
  intro r hr hd
  have hS : SameHidden (setInsert [] n) [n] := by
    intro id hid; simp [setInsert]
  obtain ⟨_, _, h3⟩ := expands_good L (agrees_run h) hP hx _ hS hb.ok
  obtain ⟨N, hN⟩ := h3.nil_pre
  have hv : (MacroSet.run h).var.get n = some b := by rw [(agrees_run h n).1, hn]
  refine ⟨hd, N, ?_⟩
  simp only [MacroSet.expandVar, hv, expandVarMacroBody_plain hb, hN N (Nat.le_refl _)]
  exact hr

/-- `#define BAD ( LIMIT 1.2.3 @ )`, `#define LIMIT 1 $`. -/
def badHistory : List Op :=
  [.defineVar c!"BAD" [c!"(", c!"LIMIT", c!"1.2.3", c!"@", c!")"], .defineVar c!"LIMIT" [c!"1", c!"$"]]

theorem badHistory_defs {n : Str} {d : Def} (h : Table.run badHistory n = some d) :
    (n = c!"LIMIT" ∧ d = .var [c!"1", c!"$"]) ∨
      (n = c!"BAD" ∧ d = .var [c!"(", c!"LIMIT", c!"1.2.3", c!"@", c!")"]) := by
  simp only [badHistory, Table.run, List.foldl, Table.step, Table.set, Table.empty] at h
  split at h
  · rename_i h1; simp only [Option.some.injEq] at h; exact .inl ⟨h1, h.symm⟩
  · split at h
    · rename_i h1; simp only [Option.some.injEq] at h; exact .inr ⟨h1, h.symm⟩
    · simp at h

/-- The error names `$`, which comes from the other macro and is the first one. -/
example : Returns (fun k => (MacroSet.run badHistory).expandVar asciiEnv k c!"BAD")
    (.error (.err (.invalidToken c!"$"))) := by
  have hP : Spec.Plain (nameOf asciiEnv) (Table.run badHistory) := by
    refine ⟨?_, ?_⟩
    · intro id b hd
      rcases badHistory_defs hd with ⟨_, h⟩ | ⟨_, h⟩ <;> cases h <;> decide
    · intro id p b hd
      rcases badHistory_defs hd with ⟨_, h⟩ | ⟨_, h⟩ <;> cases h
  refine ((C105_expand_var asciiEnv asciiEnv_lawful badHistory hP c!"BAD"
    [c!"(", c!"LIMIT", c!"1.2.3", c!"@", c!")"] rfl
    [.other c!"(", .other c!"1", .other c!"$", .other c!"1.2.3", .other c!"@", .other c!")"] ?_).2 _).2
    ⟨[.other c!"(", .other c!"1"], _, [.punct c!"(", .lit (.int ⟨1, none⟩)], rfl,
      .other ((C104_tokens asciiEnv asciiEnv_lawful _ (by decide) _).1 (by decide +kernel))
        (.other ((C104_tokens asciiEnv asciiEnv_lawful _ (by decide) _).1 (by decide +kernel)) .nil), ?_⟩
  · exact .other (.object (id := c!"LIMIT") (H := [c!"BAD"]) (body := [c!"1", c!"$"]) (b := [.other c!"1", .other c!"$"]) (by decide) rfl (.other (.other .nil))
      (.other (.other (.other .nil))))
  · intro m hm
    have := (C104_tokens asciiEnv asciiEnv_lawful c!"$" (by decide) m).2 hm
    rw [show classify asciiEnv c!"$" = none from by decide +kernel] at this
    simp at this

end CMacro
