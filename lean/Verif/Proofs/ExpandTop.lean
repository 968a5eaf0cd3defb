import Verif.Proofs.Refine

/-! # From token lists to the public calls; totality and rank arguments -/

namespace CMacro
open Spec (Item Table Def Op Expands ExpandsAll Call)

variable {E : Env} {ms : MacroSet}

/-! ## Output tokens -/

theorem classify_some {s : Str} {m : MacroToken} (h : classify E s = some m) :
    (Token.fromStr E s).detokenize 0 = .ok (some m) := by
  unfold classify at h
  split at h
  · rename_i m' hm; rw [hm, h]
  · simp at h

theorem detokenize_tok : ∀ {out : List Item} {toks : List MacroToken}, results E out = some toks →
    detokenize 0 (out.map (tokOf E)) = .ok toks := by
  intro out
  induction out with
  | nil => intro toks h; simp only [results, Option.some.injEq] at h; subst h; rfl
  | cons i is ih =>
    intro toks h
    simp only [results] at h
    split at h
    · rename_i m ms hm hms
      simp only [Option.some.injEq] at h
      subst h
      have hi : (tokOf E i).detokenize 0 = .ok (some m) := by
        cases i with
        | name id p =>
          simp only [itemResult, Option.some.injEq] at hm
          subst hm
          cases p <;> rfl
        | other s => exact classify_some hm
      simp only [List.map_cons, detokenize, hi, ih hms]
      rfl
    · simp at h

theorem detokenize_map {n : Nat} : ∀ {ts : List Token} {toks : List MacroToken},
    ts.map (fun t => t.detokenize n) = toks.map (fun m => .ok (some m)) →
    detokenize n ts = .ok toks := by
  intro ts
  induction ts with
  | nil => intro toks h; cases toks with
    | nil => rfl
    | cons _ _ => simp at h
  | cons t ts ih =>
    intro toks h
    cases toks with
    | nil => simp at h
    | cons m toks =>
      simp only [List.map_cons, List.cons.injEq] at h
      simp only [detokenize, h.1, ih h.2, bind, Except.bind, Option.toList_some,
        List.cons_append, List.nil_append]

theorem sameHidden_top : SameHidden (setInsert [] []) [] := by
  intro id hid
  simp [setInsert, hid]

/-- Spellings allowed in inputs. -/
abbrev PlainInput (body : List Str) : Prop :=
  (∀ s ∈ body, Spec.PlainSpelling s) ∧ c!"__VA_ARGS__" ∉ body

instance (body : List Str) : Decidable (PlainInput body) := by
  unfold PlainInput; infer_instance

theorem PlainInput.ok {body : List Str} (h : PlainInput body) :
    OkItems E (body.map (Spec.item (nameOf E))) := by
  intro t ht
  obtain ⟨s, hs, rfl⟩ := List.mem_map.1 ht
  exact PlainSpelling.item (h.1 s hs) (fun he => h.2 (he ▸ hs))

theorem expandVarMacroBody_plain {rec : List Str → List Token → Res (List Token)}
    {names : List Str} {name : Str} {body : List Str} (h : PlainInput body) :
    expandVarMacroBody E rec names name (tokenize E [] body) =
      rec (setInsert names name) ((body.map (Spec.item (nameOf E))).map (tokOf E)) := by
  unfold expandVarMacroBody
  have := containsVarArgs_false (E := E) (params := []) (tail := []) (.inl rfl) h.2
  simp only [List.map_nil, List.append_nil] at this
  rw [this, tokenize_nil, expandConcat_tok h.ok]
  simp only [Bool.false_eq_true, if_false, removePlacemarkers_tok]

theorem expand_of_expands (L : E.Lawful) {D : Table} (hD : Agrees ms D)
    (hP : Spec.Plain (nameOf E) D) {body : List Str} (hb : PlainInput body) {out : List Item}
    (h : Expands (nameOf E) D [] (body.map (Spec.item (nameOf E))) out) {toks : List MacroToken}
    (hr : results E out = some toks) :
    Returns (fun n => ms.expand E n body) (.ok toks) := by
  obtain ⟨_, _, h3⟩ := expands_good L hD hP h _ sameHidden_top hb.ok
  obtain ⟨N, hN⟩ := h3.nil_pre
  refine ⟨by simp, N, ?_⟩
  simp only [MacroSet.expand, expandVarMacroBody_plain hb, hN N (Nat.le_refl _),
    detokenize_tok hr]

theorem expandVar_of_expands (L : E.Lawful) {D : Table} (hD : Agrees ms D)
    (hP : Spec.Plain (nameOf E) D) {name : Str} {body : List Str} (hdef : D name = some (.var body))
    {out : List Item}
    (h : Expands (nameOf E) D [name] (body.map (Spec.item (nameOf E))) out) {toks : List MacroToken}
    (hr : results E out = some toks) :
    Returns (fun n => ms.expandVar E n name) (.ok toks) := by
  have hb : PlainInput body := hP.var name body hdef
  have hS : SameHidden (setInsert [] name) [name] := by
    intro id hid; simp [setInsert]
  obtain ⟨_, _, h3⟩ := expands_good L hD hP h _ hS hb.ok
  obtain ⟨N, hN⟩ := h3.nil_pre
  have hv : ms.var.get name = some body := by rw [(hD name).1, hdef]
  refine ⟨by simp, N, ?_⟩
  simp only [MacroSet.expandVar, hv, expandVarMacroBody_plain hb, hN N (Nat.le_refl _),
    detokenize_tok hr]

/-! ## Totality for variable-like macros -/

theorem filter_length_lt {l : List Str} {H : List Str} {id : Str} (hl : id ∈ l) (hH : id ∉ H) :
    (l.filter (fun x => x ∉ id :: H)).length < (l.filter (fun x => x ∉ H)).length := by
  have hle : ∀ l : List Str, (l.filter (fun x => x ∉ id :: H)).length ≤
      (l.filter (fun x => x ∉ H)).length := by
    intro l
    induction l with
    | nil => simp
    | cons a l ih =>
      simp only [List.filter_cons]
      split <;> split <;> simp_all <;> omega
  induction l with
  | nil => simp at hl
  | cons a l ih =>
    simp only [List.filter_cons]
    by_cases ha : a = id
    · subst ha
      have := hle l
      simp [hH] at this ⊢
      omega
    · have := ih ((List.mem_cons.1 hl).resolve_left (fun h => ha h.symm))
      by_cases hm : a ∈ H
      · simp [hm] at this ⊢; exact this
      · simp [hm, ha] at this ⊢; exact this

theorem expands_total_var {nameOf : Str → Option Str} {D : Table} {names : List Str}
    (hfin : ∀ id, D id ≠ none → id ∈ names)
    (hvar : ∀ id d, D id = some d → ∃ b, d = .var b) :
    ∀ k H ts, (names.filter (fun x => x ∉ H)).length ≤ k → ∃ out, Expands nameOf D H ts out := by
  intro k
  induction k with
  | zero =>
    intro H ts hk
    induction ts with
    | nil => exact ⟨[], .nil⟩
    | cons t ts ih =>
      obtain ⟨out, ho⟩ := ih
      cases t with
      | other s => exact ⟨_, .other ho⟩
      | name id p =>
        cases p with
        | true => exact ⟨_, .painted ho⟩
        | false =>
          by_cases hid : id ∈ H
          · exact ⟨_, .hidden hid ho⟩
          · cases hd : D id with
            | none => exact ⟨_, .undefined hid hd ho⟩
            | some d =>
              have := filter_length_lt (hfin id (by simp [hd])) hid
              omega
  | succ k ihk =>
    intro H ts hk
    induction ts with
    | nil => exact ⟨[], .nil⟩
    | cons t ts ih =>
      obtain ⟨out, ho⟩ := ih
      cases t with
      | other s => exact ⟨_, .other ho⟩
      | name id p =>
        cases p with
        | true => exact ⟨_, .painted ho⟩
        | false =>
          by_cases hid : id ∈ H
          · exact ⟨_, .hidden hid ho⟩
          · cases hd : D id with
            | none => exact ⟨_, .undefined hid hd ho⟩
            | some d =>
              obtain ⟨b, rfl⟩ := hvar id d hd
              have := filter_length_lt (hfin id (by simp [hd])) hid
              obtain ⟨b', hb'⟩ := ihk (id :: H) (b.map (Spec.item nameOf)) (by omega)
              exact ⟨_, .object hid hd hb' ho⟩

/-- A macro set knows finitely many names. -/
theorem agrees_finite {D : Table} (hD : Agrees ms D) :
    ∀ id, D id ≠ none → id ∈ ms.var.map (·.1) ++ ms.fn.map (·.1) := by
  have key : ∀ {α : Type} (m : Map α) (k : Str) (v : α), m.get k = some v → k ∈ m.map (·.1) := by
    intro α m k v h
    induction m with
    | nil => simp at h
    | cons e m ih =>
      obtain ⟨a, w⟩ := e
      rw [Map.get_cons] at h
      split at h
      · rename_i he; simp [he]
      · simp only [List.map_cons, List.mem_cons]; exact .inr (ih h)
  intro id hid
  obtain ⟨h1, h2⟩ := hD id
  rw [List.mem_append]
  cases hd : D id with
  | none => exact absurd hd hid
  | some d =>
    cases d with
    | var b => rw [hd] at h1; exact .inl (key _ _ _ h1)
    | fn p b => rw [hd] at h2; exact .inr (key _ _ _ h2)

/-! ## Where output items come from -/

theorem mem_subst {nameOf : Str → Option Str} {params : List Str} {args : List (List Item)}
    {va : Option (List Item)} {body : List Str} {t : Item}
    (h : t ∈ Spec.subst nameOf params args va body) :
    (∃ a ∈ args, t ∈ a) ∨ (∃ v, va = some v ∧ t ∈ v) ∨ ∃ s ∈ body, t = Spec.item nameOf s := by
  induction body with
  | nil => simp [Spec.subst] at h
  | cons s body ih =>
    simp only [Spec.subst, List.mem_append] at h
    rcases h with h | h
    · split at h
      · rename_i i _
        rw [List.getD_eq_getElem?_getD] at h
        cases hg : args[i]? with
        | none => simp [hg] at h
        | some a => exact .inl ⟨a, List.mem_of_getElem? hg, by simpa [hg] using h⟩
      · clear ih
        cases va with
        | some v =>
          simp only at h
          split at h
          · exact .inr (.inl ⟨v, rfl, h⟩)
          · exact .inr (.inr ⟨s, List.mem_cons_self, by simpa using h⟩)
        | none => exact .inr (.inr ⟨s, List.mem_cons_self, by simpa using h⟩)
    · rcases ih h with h | h | ⟨s, hs, h⟩
      · exact .inl h
      · exact .inr (.inl h)
      · exact .inr (.inr ⟨s, List.mem_cons_of_mem _ hs, h⟩)

theorem mem_commaJoin_inv {args : List (List Item)} {t : Item} (h : t ∈ Spec.commaJoin args) :
    t = .other c!"," ∨ ∃ a ∈ args, t ∈ a := by
  induction args with
  | nil => simp [Spec.commaJoin] at h
  | cons a as ih =>
    cases as with
    | nil => exact .inr ⟨a, by simp, by simpa [Spec.commaJoin] using h⟩
    | cons b bs =>
      simp only [Spec.commaJoin, List.mem_append, List.mem_cons] at h
      rcases h with h | h | h
      · exact .inr ⟨a, by simp, h⟩
      · exact .inl h
      · rcases ih h with h | ⟨x, hx, h⟩
        · exact .inl h
        · exact .inr ⟨x, List.mem_cons_of_mem _ hx, h⟩

/-- A property of items that holds for all bodies and is kept by painting is kept by
expansion. -/
theorem expands_inv {nameOf : Str → Option Str} {D : Table} (Q : Item → Prop)
    (hpaint : ∀ id, Q (.name id false) → Q (.name id true)) (hcomma : Q (.other c!","))
    (hbody : ∀ id d, D id = some d → ∀ s ∈ (match d with | .var b => b | .fn _ b => b),
      Q (Spec.item nameOf s) ∨ ∃ p b, d = .fn p b ∧ s = c!"__VA_ARGS__")
    (hva : ∀ id p b, D id = some (.fn p b) → c!"__VA_ARGS__" ∈ b →
      c!"..." ∈ p) {H : List Str} {ts out : List Item}
    (h : Expands nameOf D H ts out) : (∀ t ∈ ts, Q t) → ∀ t ∈ out, Q t := by
  have hcons : ∀ {i : Item} {l : List Item}, Q i → (∀ t ∈ l, Q t) → ∀ t ∈ i :: l, Q t := by
    intro i l hi hl t ht
    rcases List.mem_cons.1 ht with rfl | ht
    · exact hi
    · exact hl t ht
  have htail : ∀ {i : Item} {l : List Item}, (∀ t ∈ i :: l, Q t) → ∀ t ∈ l, Q t :=
    fun h t ht => h t (List.mem_cons_of_mem _ ht)
  have happ : ∀ {a b : List Item}, (∀ t ∈ a, Q t) → (∀ t ∈ b, Q t) → ∀ t ∈ a ++ b, Q t :=
    fun ha hb t ht => (List.mem_append.1 ht).elim (ha t) (hb t)
  have hcall : ∀ {args : List (List Item)} {ts rest : List Item}, Call args ts rest →
      (∀ t ∈ ts, Q t) → (∀ a ∈ args, ∀ t ∈ a, Q t) ∧ ∀ t ∈ rest, Q t := by
    rintro args ts rest ⟨_, _, rfl⟩ h
    exact ⟨fun a ha t ht => h t (by simp [mem_commaJoin a ha t ht]), fun t ht => h t (by simp [ht])⟩
  refine Expands.rec (motive_1 := fun H ts out _ => (∀ t ∈ ts, Q t) → ∀ t ∈ out, Q t)
    (motive_2 := fun H as as' _ => (∀ a ∈ as, ∀ t ∈ a, Q t) → ∀ a ∈ as', ∀ t ∈ a, Q t)
    ?nil ?other ?painted ?hidden ?undefined ?object ?call ?callV ?anil ?acons h
  case nil => exact fun h => h
  case other => exact fun _ ih h => hcons (h _ List.mem_cons_self) (ih (htail h))
  case painted => exact fun _ ih h => hcons (h _ List.mem_cons_self) (ih (htail h))
  case hidden => exact fun _ _ ih h => hcons (hpaint _ (h _ List.mem_cons_self)) (ih (htail h))
  case undefined => exact fun _ _ _ ih h => hcons (h _ List.mem_cons_self) (ih (htail h))
  case object =>
    intro H id body b ts out _ hd _ _ ihb ih h
    refine happ (ihb ?_) (ih (htail h))
    intro t ht
    obtain ⟨s, hs, rfl⟩ := List.mem_map.1 ht
    rcases hbody id _ hd s hs with h | ⟨p, b, h, _⟩
    · exact h
    · simp at h
  case call =>
    intro H id params body args args' b ts rest out _ hd hell hc _ _ _ _ iha ihb ih h
    obtain ⟨ha, hr⟩ := hcall hc (htail h)
    refine happ (ihb ?_) (ih hr)
    intro t ht
    rcases mem_subst ht with ⟨a, hm, ht⟩ | ⟨v, hv, _⟩ | ⟨s, hs, rfl⟩
    · exact iha ha a hm t ht
    · simp at hv
    · rcases hbody id _ hd s hs with h | ⟨p, b, _, rfl⟩
      · exact h
      · exact absurd (hva id _ _ hd hs) hell
  case callV =>
    intro H id params body args args' va b ts rest out _ hd hell hc _ _ _ _ _ iha ihva ihb ih h
    obtain ⟨ha, hr⟩ := hcall hc (htail h)
    refine happ (ihb ?_) (ih hr)
    have hargs' := iha (fun a hm => ha a (List.mem_of_mem_take hm))
    have hva' := ihva (fun t ht => by
      rcases mem_commaJoin_inv ht with rfl | ⟨a, hm, ht⟩
      · exact hcomma
      · exact ha a (List.mem_of_mem_drop hm) t ht)
    have key : ∀ body' : List Str, (∀ s ∈ body', s ∈ body) →
        ∀ t ∈ Spec.subst nameOf params args' (some va) body', Q t := by
      intro body'
      induction body' with
      | nil => intro _ t ht; simp [Spec.subst] at ht
      | cons s body' ih' =>
        intro hsub t ht
        simp only [Spec.subst, List.mem_append] at ht
        rcases ht with ht | ht
        · split at ht
          · rename_i i _
            rw [List.getD_eq_getElem?_getD] at ht
            cases hg : args'[i]? with
            | none => simp [hg] at ht
            | some a => exact hargs' a (List.mem_of_getElem? hg) t (by simpa [hg] using ht)
          · split at ht
            · exact hva' t ht
            · rename_i hs
              simp only [List.mem_singleton] at ht
              subst ht
              rcases hbody id _ hd s (hsub s List.mem_cons_self) with h | ⟨p, b, _, h⟩
              · exact h
              · exact absurd h hs
        · exact ih' (fun x hx => hsub x (List.mem_cons_of_mem _ hx)) t ht
    exact key body (fun _ h => h)
  case anil => intro H _ a ha; simp at ha
  case acons =>
    intro H a a' as as' _ _ iha ihas h x hx
    rcases List.mem_cons.1 hx with rfl | hx
    · exact iha (h a List.mem_cons_self)
    · exact ihas (fun y hy => h y (List.mem_cons_of_mem _ hy)) x hx

theorem results_some : ∀ {out : List Item},
    (∀ t ∈ out, itemResult E t ≠ none) → ∃ toks, results E out = some toks := by
  intro out
  induction out with
  | nil => intro _; exact ⟨[], rfl⟩
  | cons i is ih =>
    intro h
    obtain ⟨toks, ht⟩ := ih (fun t hm => h t (List.mem_cons_of_mem _ hm))
    cases hi : itemResult E i with
    | none => exact absurd hi (h i List.mem_cons_self)
    | some m => exact ⟨m :: toks, by simp [results, hi, ht]⟩

theorem results_mem : ∀ {out : List Item} {toks : List MacroToken}, results E out = some toks →
    ∀ m ∈ toks, ∃ t ∈ out, itemResult E t = some m := by
  intro out
  induction out with
  | nil => intro toks h m hm; simp [results] at h; subst h; simp at hm
  | cons i is ih =>
    intro toks h m hm
    simp only [results] at h
    split at h
    · rename_i m' ms' hm' hms'
      simp only [Option.some.injEq] at h
      subst h
      rcases List.mem_cons.1 hm with rfl | hm
      · exact ⟨i, List.mem_cons_self, hm'⟩
      · obtain ⟨t, ht, he⟩ := ih hms' m hm
        exact ⟨t, List.mem_cons_of_mem _ ht, he⟩
    · simp at h

theorem itemResult_item {s : Str} (h : classify E s ≠ none) :
    itemResult E (Spec.item (nameOf E) s) ≠ none := by
  unfold Spec.item
  split
  · simp [itemResult]
  · exact h

/-! ## Acyclic sets paint nothing -/

theorem expands_acyclic {nameOf : Str → Option Str} {D : Table} (rank : Str → Nat)
    (hvar : ∀ id d, D id = some d → ∃ b, d = .var b)
    (hrank : ∀ id b, D id = some (.var b) → ∀ s ∈ b, ∀ id', nameOf s = some id' →
      D id' ≠ none → rank id' < rank id)
    {H : List Str} {ts out : List Item} (h : Expands nameOf D H ts out) :
    (∀ x ∈ H, D x ≠ none) → (∀ id p, Item.name id p ∈ ts → p = false ∧
      (D id ≠ none → ∀ x ∈ H, rank id < rank x)) →
    ∀ id p, Item.name id p ∈ out → D id = none := by
  refine Expands.rec (motive_1 := fun H ts out _ =>
      (∀ x ∈ H, D x ≠ none) → (∀ id p, Item.name id p ∈ ts → p = false ∧
        (D id ≠ none → ∀ x ∈ H, rank id < rank x)) →
      ∀ id p, Item.name id p ∈ out → D id = none)
    (motive_2 := fun _ _ _ _ => True)
    ?nil ?other ?painted ?hidden ?undefined ?object ?call ?callV ?anil ?acons h
  case nil => intro H _ _ id p h; simp at h
  case other =>
    intro H s ts out _ ih hH h id p hm
    rcases List.mem_cons.1 hm with hm | hm
    · simp at hm
    · exact ih hH (fun i q hq => h i q (List.mem_cons_of_mem _ hq)) id p hm
  case painted =>
    intro H id ts out _ _ _ h
    exact absurd (h id true List.mem_cons_self).1 (by simp)
  case hidden =>
    intro H id ts out hid _ _ hH h
    have := (h id false List.mem_cons_self).2 (hH id hid) id hid
    omega
  case undefined =>
    intro H id ts out _ hd _ ih hH h i p hm
    rcases List.mem_cons.1 hm with hm | hm
    · simp only [Item.name.injEq] at hm; rw [hm.1]; exact hd
    · exact ih hH (fun i q hq => h i q (List.mem_cons_of_mem _ hq)) i p hm
  case object =>
    intro H id body b ts out hid hd _ _ ihb ih hH h i p hm
    rcases List.mem_append.1 hm with hm | hm
    · refine ihb ?_ ?_ i p hm
      · intro x hx
        rcases List.mem_cons.1 hx with rfl | hx
        · simp [hd]
        · exact hH x hx
      · intro j q hq
        obtain ⟨s, hs, he⟩ := List.mem_map.1 hq
        unfold Spec.item at he
        split at he
        · rename_i j' hj
          simp only [Item.name.injEq] at he
          obtain ⟨rfl, rfl⟩ := he
          refine ⟨rfl, fun hdj x hx => ?_⟩
          have hlt := hrank id body hd s hs _ hj hdj
          rcases List.mem_cons.1 hx with rfl | hx
          · exact hlt
          · have := (h id false List.mem_cons_self).2 (by simp [hd]) x hx
            omega
        · simp at he
    · exact ih hH (fun i q hq => h i q (List.mem_cons_of_mem _ hq)) i p hm
  case call =>
    intro H id params body args args' b ts rest out _ hd
    obtain ⟨_, hb⟩ := hvar id _ hd
    simp at hb
  case callV =>
    intro H id params body args args' va b ts rest out _ hd
    obtain ⟨_, hb⟩ := hvar id _ hd
    simp at hb
  case anil => intros; trivial
  case acons => intros; trivial

end CMacro
