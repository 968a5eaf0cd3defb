import Verif.Props.Beforehand

/-!
# C114: sets of definitions in which no macro uses itself
-/

namespace CMacro
open Spec (Op Def Table Item Expands ExpandsAll Call Uses ArgText)

variable {E : Env} {nameOf' : Str → Option Str}

theorem uses_defined {D : Table} {x y : Str} (h : Uses nameOf' D x y) : D x ≠ none := by
  induction h with
  | word hd _ _ => rw [hd]; simp
  | trans _ _ ih _ => exact ih

/-- The item is a word of the text as it was read. -/
def Written (nameOf : Str → Option Str) (i : Item) : Prop :=
  ∃ w, (Spec.PlainSpelling w ∧ w ≠ c!"__VA_ARGS__") ∧ i = Spec.item nameOf w

theorem written_name {id : Str} {p : Bool} (h : Written nameOf' (.name id p)) : p = false := by
  obtain ⟨w, _, h⟩ := h
  unfold Spec.item at h
  split at h
  · cases h; rfl
  · cases h

/-- If no macro uses itself, no name is withheld. -/
theorem expands_written {D : Table} (hP : Spec.Plain nameOf' D) (hW : Spec.WellNested nameOf' D) (hac : ∀ x, ¬ Uses nameOf' D x x)
    {H : List Str} {ts out : List Item} (h : Expands nameOf' D H ts out) :
    (∀ i ∈ ts, Written nameOf' i) → (∀ id p, Item.name id p ∈ ts → ∀ x ∈ H, id ≠ x ∧ ¬ Uses nameOf' D id x) → ∀ i ∈ out, Written nameOf' i := by
  have hname : ∀ {id d s i p}, D id = some d → s ∈ d.words → Item.name i p = Spec.item nameOf' s → Uses nameOf' D id i := by
    intro id d s i p hd hs he
    unfold Spec.item at he
    split at he
    · next y hy =>
      injection he with h1 _
      subst h1
      exact .word hd hs hy
    · cases he
  have hbody : ∀ {H : List Str} {id i : Str}, (∀ x ∈ H, id ≠ x ∧ ¬ Uses nameOf' D id x) → Uses nameOf' D id i →
      ∀ x ∈ id :: H, i ≠ x ∧ ¬ Uses nameOf' D i x := by
    intro H id i hid hu x hx
    rcases List.mem_cons.1 hx with rfl | hx
    · exact ⟨fun he => hac _ (he ▸ hu), fun h => hac _ (.trans hu h)⟩
    · exact ⟨fun he => (hid x hx).2 (he ▸ hu), fun h => (hid x hx).2 (.trans hu h)⟩
  have hundef : ∀ {H : List Str} {id i : Str} {d : Def}, D id = some d → i ∉ H → D i = none → ∀ x ∈ id :: H, i ≠ x ∧ ¬ Uses nameOf' D i x := by
    intro H id i d hd hi hn x hx
    refine ⟨?_, fun h => uses_defined h hn⟩
    rintro rfl
    rcases List.mem_cons.1 hx with rfl | hx
    · rw [hd] at hn; cases hn
    · exact hi hx
  have htail : ∀ {Q : Item → Prop} {t : Item} {l : List Item}, (∀ i ∈ t :: l, Q i) → ∀ i ∈ l, Q i :=
    fun h i hm => h i (List.mem_cons_of_mem _ hm)
  refine Expands.rec
    (motive_1 := fun H ts out _ => (∀ i ∈ ts, Written nameOf' i) →
      (∀ id p, Item.name id p ∈ ts → ∀ x ∈ H, id ≠ x ∧ ¬ Uses nameOf' D id x) → ∀ i ∈ out, Written nameOf' i)
    (motive_2 := fun H as as' _ => (∀ a ∈ as, ∀ i ∈ a, Written nameOf' i) →
      (∀ a ∈ as, ∀ id p, Item.name id p ∈ a → ∀ x ∈ H, id ≠ x ∧ ¬ Uses nameOf' D id x) →
      (∀ a ∈ as', ∀ i ∈ a, Written nameOf' i) ∧ ∀ a ∈ as', ∀ id, Item.name id false ∈ a → id ∉ H ∧ D id = none)
    ?nil ?other ?painted ?hidden ?undefined ?object ?call ?callV ?anil ?acons h
  case nil => exact fun h _ => h
  case other =>
    intro H s ts out _ ih hw hn i hm
    rcases List.mem_cons.1 hm with rfl | hm
    · exact hw _ List.mem_cons_self
    · exact ih (htail hw) (fun id p hm => hn id p (List.mem_cons_of_mem _ hm)) i hm
  case painted =>
    intro H id ts out _ ih hw hn i hm
    cases written_name (hw _ List.mem_cons_self)
  case hidden =>
    intro H id ts out hid _ ih hw hn i hm
    exact absurd rfl (hn id false List.mem_cons_self id hid).1
  case undefined =>
    intro H id ts out hid hd _ ih hw hn i hm
    rcases List.mem_cons.1 hm with rfl | hm
    · exact hw _ List.mem_cons_self
    · exact ih (htail hw) (fun id p hm => hn id p (List.mem_cons_of_mem _ hm)) i hm
  case object =>
    intro H id body b ts out hid hd _ _ ihb ih hw hn i hm
    rcases List.mem_append.1 hm with hm | hm
    · refine ihb ?_ ?_ i hm
      · intro j hj
        obtain ⟨s, hs, rfl⟩ := List.mem_map.1 hj
        exact ⟨s, ⟨(hP.var id body hd).1 s hs, fun he => (hP.var id body hd).2 (he ▸ hs)⟩, rfl⟩
      · intro j p hj
        obtain ⟨s, hs, he⟩ := List.mem_map.1 hj
        exact hbody (hn id false List.mem_cons_self) (hname hd (by exact hs) he.symm)
    · exact ih (htail hw) (fun id p hm => hn id p (List.mem_cons_of_mem _ hm)) i hm
  case call =>
    intro H id params body args args' b ts rest out hid hd hell hc har _ _ _ iha ihb ih hw hn i hm
    obtain ⟨_, _, rfl⟩ := hc
    obtain ⟨ha, hl⟩ := iha (fun a ham j hj => hw j (by simp [mem_commaJoin a ham _ hj]))
      (fun a ham j p hj => hn j p (by simp [mem_commaJoin a ham _ hj]))
    rcases List.mem_append.1 hm with hm | hm
    · refine ihb ?_ ?_ i hm
      · intro j hj
        rcases mem_subst hj with ⟨a, h1, h2⟩ | ⟨v, h1, _⟩ | ⟨s, h1, rfl⟩
        · exact ha a h1 j h2
        · cases h1
        · obtain ⟨h3, h4, _⟩ := hP.fn id params body hd
          exact ⟨s, ⟨h3 s h1, fun he => hell (h4 (he ▸ h1))⟩, rfl⟩
      · intro j p hj
        rcases mem_subst hj with ⟨a, h1, h2⟩ | ⟨v, h1, _⟩ | ⟨s, h1, he⟩
        · cases written_name (ha a h1 _ h2)
          exact hundef hd (hl a h1 j h2).1 (hl a h1 j h2).2
        · cases h1
        · exact hbody (hn id false List.mem_cons_self) (hname hd (by exact h1) he)
    · exact ih (fun j hj => hw j (by simp [hj])) (fun j p hj => hn j p (by simp [hj])) i hm
  case callV =>
    intro H id params body args args' va b ts rest out hid hd
    exact absurd (by simp) (hW.fn id _ body hd).1
  case anil => exact fun _ _ => ⟨(fun _ h => nomatch h), (fun _ h => nomatch h)⟩
  case acons =>
    intro H a a' as as' hx _ iha ih hw hn
    obtain ⟨h1, h2⟩ := ih (fun b hb => hw b (List.mem_cons_of_mem _ hb)) (fun b hb => hn b (List.mem_cons_of_mem _ hb))
    have h3 := iha (hw a List.mem_cons_self) (hn a List.mem_cons_self)
    refine ⟨fun b hb => ?_, fun b hb => ?_⟩
    · rcases List.mem_cons.1 hb with rfl | hb
      · exact h3
      · exact h1 b hb
    · rcases List.mem_cons.1 hb with rfl | hb
      · exact expands_left hx
      · exact h2 b hb

theorem written_text : ∀ {ts : List Item}, (∀ i ∈ ts, Written nameOf' i) →
    ∃ ws : List Str, (∀ w ∈ ws, Spec.PlainSpelling w ∧ w ≠ c!"__VA_ARGS__") ∧ ts = ws.map (Spec.item nameOf')
  | [], _ => ⟨[], (fun _ h => nomatch h), rfl⟩
  | i :: ts, h => by
    obtain ⟨w, hw, rfl⟩ := h i List.mem_cons_self
    obtain ⟨ws, h1, rfl⟩ := written_text (fun j hj => h j (List.mem_cons_of_mem _ hj))
    refine ⟨w :: ws, fun v hv => ?_, rfl⟩
    rcases List.mem_cons.1 hv with rfl | hv
    · exact hw
    · exact h1 v hv

/-- **C114** in sets of definitions as in C07 in which no macro uses itself: every text in which the calls are complete can be expanded
beforehand, to a text without names of macros. -/
theorem C114_total (E : Env) (L : E.Lawful) (h : List Op) (hP : Spec.Plain (nameOf E) (Table.run h))
    (hW : Spec.WellNested (nameOf E) (Table.run h)) (hac : ∀ x, ¬ Uses (nameOf E) (Table.run h) x x) (text : List Str) (ht : PlainInput text)
    (hc : Spec.Complete (Table.run h) (text.map (Spec.item (nameOf E)))) :
    ∃ text', PlainInput text' ∧ Expands (nameOf E) (Table.run h) [] (text.map (Spec.item (nameOf E))) (text'.map (Spec.item (nameOf E))) ∧
      (∀ w ∈ text', ∀ y, nameOf E w = some y → Table.run h y = none) ∧
      ∃ r, Returns (fun k => (MacroSet.run h).expand E k text) r ∧ Returns (fun k => (MacroSet.run h).expand E k text') r := by
  obtain ⟨out, hout⟩ := expands_total hW (agrees_finite (agrees_run h)) _ [] _ (Nat.lt_succ_self _) hc
  have hwr := expands_written hP hW hac hout
    (fun i hi => by
      obtain ⟨s, hs, rfl⟩ := List.mem_map.1 hi
      exact ⟨s, ⟨ht.1 s hs, fun he => ht.2 (he ▸ hs)⟩, rfl⟩)
    (fun _ _ _ _ hx => nomatch hx)
  obtain ⟨text', h1, rfl⟩ := written_text hwr
  have ht' : PlainInput text' := ⟨fun s hs => (h1 s hs).1, fun hm => (h1 _ hm).2 rfl⟩
  refine ⟨text', ht', hout, fun w hw y hy => ?_, C114_text E L h hP text text' ht ht' hout⟩
  refine (expands_left hout y ?_).2
  refine List.mem_map.2 ⟨w, hw, ?_⟩
  simp only [Spec.item, hy]

theorem nextHistory_uses {x y : Str} (h : Uses (nameOf asciiEnv) (Table.run nextHistory) x y) :
    (x = c!"NEXT" ∧ y ≠ c!"NEXT") ∨ (x = c!"INC" ∧ y ≠ c!"NEXT" ∧ y ≠ c!"INC") := by
  induction h with
  | @word x d w y hd hw hy =>
    have k1 : ∀ w ∈ [c!"(", c!"x", c!"+", c!"1", c!")"], nameOf asciiEnv w ≠ some c!"NEXT" ∧ nameOf asciiEnv w ≠ some c!"INC" := by decide +kernel
    have k2 : ∀ w ∈ [c!"INC", c!"(", c!"x", c!")"], nameOf asciiEnv w ≠ some c!"NEXT" := by decide +kernel
    rcases nextHistory_defs hd with ⟨rfl, rfl⟩ | ⟨rfl, rfl⟩
    · refine .inr ⟨rfl, ?_, ?_⟩ <;> rintro rfl
      · exact (k1 w hw).1 hy
      · exact (k1 w hw).2 hy
    · refine .inl ⟨rfl, ?_⟩
      rintro rfl
      exact k2 w hw hy
  | trans _ _ ih1 ih2 =>
    rcases ih1 with ⟨rfl, h1⟩ | ⟨rfl, h1, h2⟩
    · rcases ih2 with ⟨rfl, _⟩ | ⟨rfl, h3, _⟩
      · exact absurd rfl h1
      · exact .inl ⟨rfl, h3⟩
    · rcases ih2 with ⟨rfl, _⟩ | ⟨rfl, _⟩
      · exact absurd rfl h1
      · exact absurd rfl h2

/-- `NEXT(y)` can be expanded beforehand. -/
example : ∃ text', PlainInput text' ∧ Expands (nameOf asciiEnv) (Table.run nextHistory) []
      ([c!"NEXT", c!"(", c!"y", c!")"].map (Spec.item (nameOf asciiEnv))) (text'.map (Spec.item (nameOf asciiEnv))) ∧
      (∀ w ∈ text', ∀ y, nameOf asciiEnv w = some y → Table.run nextHistory y = none) ∧
      ∃ r, Returns (fun k => (MacroSet.run nextHistory).expand asciiEnv k [c!"NEXT", c!"(", c!"y", c!")"]) r ∧
        Returns (fun k => (MacroSet.run nextHistory).expand asciiEnv k text') r := by
  refine C114_total asciiEnv asciiEnv_lawful nextHistory (plain_of_check (by decide +kernel)) nextHistory_wellNested ?_ _
    ⟨by decide, by decide⟩ ?_
  · intro x h
    rcases nextHistory_uses h with ⟨rfl, h⟩ | ⟨rfl, _, h⟩ <;> exact h rfl
  · rw [show [c!"NEXT", c!"(", c!"y", c!")"].map (Spec.item (nameOf asciiEnv)) =
      [.name c!"NEXT" false, .other c!"(", .name c!"y" false, .other c!")"] from by decide +kernel]
    refine .call (args := [[.name c!"y" false]]) (rest := []) rfl (call_of_check (by decide)) (.inl rfl) ?_ .nil
    intro a ha
    obtain rfl := List.mem_singleton.1 ha
    exact .name (fun _ _ h => by cases h) .nil

/-- `NEXT(y)` and `(y + 1)`. -/
example : (MacroSet.run nextHistory).expand asciiEnv 8 [c!"NEXT", c!"(", c!"y", c!")"] =
      .ok [.punct c!"(", .ident c!"y", .punct c!"+", .lit (.int ⟨1, none⟩), .punct c!")"] ∧
    (MacroSet.run nextHistory).expand asciiEnv 8 [c!"(", c!"y", c!"+", c!"1", c!")"] =
      .ok [.punct c!"(", .ident c!"y", .punct c!"+", .lit (.int ⟨1, none⟩), .punct c!")"] := by decide +kernel

end CMacro
