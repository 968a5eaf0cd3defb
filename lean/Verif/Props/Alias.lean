import Verif.Spec.Alias
import Verif.Spec.RenameAll
import Verif.Props.FnExpand
import Verif.Props.Value

/-!
# C112: another name for a macro
-/

namespace CMacro
open Spec (Op Def Table Item Expands ExpandsAll Call Uses)

variable {E : Env} {nameOf' : Str → Option Str}

/-- Whether a macro is hidden makes no difference to texts that do not lead to its name. -/
theorem expands_hide {D : Table} {T : Str → Prop}
    (hT : ∀ id d w y, T id → D id = some d → w ∈ d.words → nameOf' w = some y → T y) {H : List Str} {ts out : List Item}
    (h : Expands nameOf' D H ts out) : ∀ H', (∀ id, T id → (id ∈ H' ↔ id ∈ H)) → (∀ id p, Item.name id p ∈ ts → T id) →
      Expands nameOf' D H' ts out ∧ ∀ id p, Item.name id p ∈ out → T id := by
  have hbody : ∀ {id d s i p}, T id → D id = some d → s ∈ d.words → Item.name i p = Spec.item nameOf' s → T i := by
    intro id d s i p hid hd hs he
    unfold Spec.item at he
    split at he
    · next y hy =>
      injection he with h1 _
      subst h1
      exact hT id d s _ hid hd hs hy
    · cases he
  have hcall : ∀ {args : List (List Item)} {ts rest : List Item}, Call args ts rest →
      (∀ i p, Item.name i p ∈ ts → T i) → (∀ a ∈ args, ∀ i p, Item.name i p ∈ a → T i) ∧ ∀ i p, Item.name i p ∈ rest → T i := by
    rintro args ts rest ⟨_, _, rfl⟩ h
    exact ⟨fun a ha i p ht => h i p (by simp [mem_commaJoin a ha _ ht]), fun i p ht => h i p (by simp [ht])⟩
  have hsub : ∀ {id d ps args va body}, T id → D id = some d → (∀ s ∈ body, s ∈ d.words) →
      (∀ a ∈ args, ∀ i p, Item.name i p ∈ a → T i) → (∀ v, va = some v → ∀ i p, Item.name i p ∈ v → T i) →
      ∀ i p, Item.name i p ∈ Spec.subst nameOf' ps args va body → T i := by
    intro id d ps args va body hid hd hb ha hv i p hm
    rcases mem_subst hm with ⟨a, h1, h2⟩ | ⟨v, h1, h2⟩ | ⟨s, h1, h2⟩
    · exact ha a h1 i p h2
    · exact hv v h1 i p h2
    · exact hbody hid hd (hb s h1) h2
  have hcons : ∀ {H H' : List Str} {id : Str}, (∀ i, T i → (i ∈ H' ↔ i ∈ H)) → ∀ i, T i → (i ∈ id :: H' ↔ i ∈ id :: H) := by
    intro H H' id h i hi
    simp only [List.mem_cons, h i hi]
  have happ : ∀ {a b : List Item}, (∀ i p, Item.name i p ∈ a → T i) → (∀ i p, Item.name i p ∈ b → T i) →
      ∀ i p, Item.name i p ∈ a ++ b → T i := fun ha hb i p hm => (List.mem_append.1 hm).elim (ha i p) (hb i p)
  have htail : ∀ {t : Item} {l : List Item}, (∀ i p, Item.name i p ∈ t :: l → T i) → ∀ i p, Item.name i p ∈ l → T i :=
    fun h i p hm => h i p (List.mem_cons_of_mem _ hm)
  refine Expands.rec
    (motive_1 := fun H ts out _ => ∀ H', (∀ id, T id → (id ∈ H' ↔ id ∈ H)) → (∀ id p, Item.name id p ∈ ts → T id) →
      Expands nameOf' D H' ts out ∧ ∀ id p, Item.name id p ∈ out → T id)
    (motive_2 := fun H as as' _ => ∀ H', (∀ id, T id → (id ∈ H' ↔ id ∈ H)) → (∀ a ∈ as, ∀ id p, Item.name id p ∈ a → T id) →
      ExpandsAll nameOf' D H' as as' ∧ ∀ a ∈ as', ∀ id p, Item.name id p ∈ a → T id)
    ?nil ?other ?painted ?hidden ?undefined ?object ?call ?callV ?anil ?acons h
  case nil => exact fun H' _ h => ⟨.nil, h⟩
  case other =>
    intro H s ts out _ ih H' hH h
    obtain ⟨h1, h2⟩ := ih H' hH (htail h)
    refine ⟨.other h1, fun i p hm => ?_⟩
    rcases List.mem_cons.1 hm with hm | hm
    · cases hm
    · exact h2 i p hm
  case painted =>
    intro H id ts out _ ih H' hH h
    obtain ⟨h1, h2⟩ := ih H' hH (htail h)
    refine ⟨.painted h1, fun i p hm => ?_⟩
    rcases List.mem_cons.1 hm with hm | hm
    · cases hm; exact h _ _ List.mem_cons_self
    · exact h2 i p hm
  case hidden =>
    intro H id ts out hid _ ih H' hH h
    obtain ⟨h1, h2⟩ := ih H' hH (htail h)
    have hi := h _ _ List.mem_cons_self
    refine ⟨.hidden ((hH id hi).2 hid) h1, fun i p hm => ?_⟩
    rcases List.mem_cons.1 hm with hm | hm
    · cases hm; exact hi
    · exact h2 i p hm
  case undefined =>
    intro H id ts out hid hd _ ih H' hH h
    obtain ⟨h1, h2⟩ := ih H' hH (htail h)
    have hi := h _ _ List.mem_cons_self
    refine ⟨.undefined (fun hm => hid ((hH id hi).1 hm)) hd h1, fun i p hm => ?_⟩
    rcases List.mem_cons.1 hm with hm | hm
    · cases hm; exact hi
    · exact h2 i p hm
  case object =>
    intro H id body b ts out hid hd _ _ ihb ih H' hH h
    have hi := h _ _ List.mem_cons_self
    obtain ⟨h1, h2⟩ := ih H' hH (htail h)
    obtain ⟨h3, h4⟩ := ihb (id :: H') (hcons hH) (fun i p hm => by
      obtain ⟨s, hs, he⟩ := List.mem_map.1 hm
      exact hbody hi hd (by exact hs) he.symm)
    exact ⟨.object (fun hm => hid ((hH id hi).1 hm)) hd h3 h1, happ h4 h2⟩
  case call =>
    intro H id params body args args' b ts rest out hid hd hell hc har _ _ _ iha ihb ih H' hH h
    have hi := h _ _ List.mem_cons_self
    obtain ⟨ha, hr⟩ := hcall hc (htail h)
    obtain ⟨h1, h2⟩ := ih H' hH hr
    obtain ⟨h5, h6⟩ := iha H' hH ha
    obtain ⟨h3, h4⟩ := ihb (id :: H') (hcons hH) (hsub hi hd (fun _ hs => hs) h6 (fun _ hv => (by cases hv)))
    exact ⟨.call (fun hm => hid ((hH id hi).1 hm)) hd hell hc har h5 h3 h1, happ h4 h2⟩
  case callV =>
    intro H id params body args args' va b ts rest out hid hd hell hc hlen _ _ _ _ iha ihva ihb ih H' hH h
    have hi := h _ _ List.mem_cons_self
    obtain ⟨ha, hr⟩ := hcall hc (htail h)
    obtain ⟨h1, h2⟩ := ih H' hH hr
    obtain ⟨h5, h6⟩ := iha H' hH (fun a hm => ha a (List.mem_of_mem_take hm))
    obtain ⟨h7, h8⟩ := ihva H' hH (fun i p hm => by
      rcases mem_commaJoin_inv hm with he | ⟨a, ham, hm⟩
      · cases he
      · exact ha a (List.mem_of_mem_drop ham) i p hm)
    obtain ⟨h3, h4⟩ := ihb (id :: H') (hcons hH) (hsub hi hd (fun _ hs => hs) h6 (fun v hv => by cases hv; exact h8))
    exact ⟨.callVariadic (fun hm => hid ((hH id hi).1 hm)) hd hell hc hlen h5 h7 h3 h1, happ h4 h2⟩
  case anil => exact fun H' _ h => ⟨.nil, h⟩
  case acons =>
    intro H a a' as as' _ _ iha ih H' hH h
    obtain ⟨h1, h2⟩ := iha H' hH (h a List.mem_cons_self)
    obtain ⟨h3, h4⟩ := ih H' hH (fun b hb => h b (List.mem_cons_of_mem _ hb))
    refine ⟨.cons h1 h3, fun b hb => ?_⟩
    rcases List.mem_cons.1 hb with rfl | hb
    · exact h2
    · exact h4 b hb

/-- A macro expands in the same way while another one is hidden that it does not use. -/
theorem expands_under {D : Table} {f g : Str} {d : Def} (hf : D f = some d) (hne : f ≠ g) (hu : ¬ Uses nameOf' D f g) {ts out : List Item}
    (hts : ∀ id p, Item.name id p ∈ ts → ∃ w ∈ d.words, nameOf' w = some id)
    (h : Expands nameOf' D [f] ts out) : Expands nameOf' D [f, g] ts out := by
  refine (expands_hide (T := fun y => y = f ∨ Uses nameOf' D f y) ?_ h [f, g] ?_ ?_).1
  · rintro id d' w y (rfl | hid) hd hw hy
    · exact .inr (.word hd hw hy)
    · exact .inr (.trans hid (.word hd hw hy))
  · rintro id (rfl | hid)
    · simp
    · have : id ≠ g := by rintro rfl; exact hu hid
      simp [this]
  · intro id p hm
    obtain ⟨w, hw, hy⟩ := hts id p hm
    exact .inr (.word hf hw hy)

/-- The text of a call of `f` with the parameters of the macro it stands in. -/
theorem openBody_call (L : E.Lawful) {f : Str} (hn : nameOf E f = some f) {xs : List Str} (hf : f ∉ xs) (hw : Wordy (nameOf E) xs) :
    Spec.openBody (nameOf E) xs (callText f (xs.map fun x => [x])) =
      .name f false :: (.other c!"(" :: Spec.commaJoin (if xs = [] then [[]] else xs.map fun x => [.other x]) ++ .other c!")" :: []) := by
  have hb : ∀ s, (Spec.IsBracket s ∨ s = c!",") → s ∉ xs := fun s hs hm => (hw s hm).2.elim fun h1 h2 => hs.elim h1 h2
  have hl : Spec.item (nameOf E) c!"(" = .other c!"(" := item_punct L (by decide)
  have hr : Spec.item (nameOf E) c!")" = .other c!")" := item_punct L (by decide)
  have hc : Spec.item (nameOf E) c!"," = .other c!"," := item_punct L (by decide)
  have hlist : ∀ ys : List Str, (∀ y ∈ ys, y ∈ xs) →
      (withCommas (ys.map fun x => [x])).map (fun s => if s ∈ xs then Item.other s else Spec.item (nameOf E) s) =
        Spec.commaJoin (ys.map fun x => [.other x]) := by
    intro ys
    induction ys with
    | nil => intro _; rfl
    | cons y ys ih =>
      intro hy
      have h1 := ih fun z hz => hy z (List.mem_cons_of_mem _ hz)
      cases ys with
      | nil => simp [withCommas, Spec.commaJoin, hy y List.mem_cons_self]
      | cons z zs =>
        simp only [List.map_cons, withCommas, Spec.commaJoin, List.map_append, List.map_nil, List.singleton_append,
          if_pos (hy y List.mem_cons_self), if_neg (hb c!"," (.inr rfl)), hc] at h1 ⊢
        rw [← h1]
  simp only [Spec.openBody, callText, List.cons_append, List.map_cons, List.map_append, List.map_nil, if_neg hf,
    if_neg (hb c!"(" (.inl (.inl rfl))), if_neg (hb c!")" (.inl (.inr (.inl rfl)))), hl, hr, hlist xs fun _ h => h]
  have hfi : Spec.item (nameOf E) f = .name f false := by simp only [Spec.item, hn]
  rw [hfi]
  cases xs with
  | nil => rfl
  | cons x xs => rw [if_neg (by simp)]

/-- Parameters put in place of themselves. -/
theorem subst_self {xs : List Str} : ∀ body : List Str,
    Spec.subst nameOf' xs (if xs = [] then [[]] else xs.map fun x => [.other x]) none body = Spec.openBody nameOf' xs body
  | [] => rfl
  | s :: body => by
    have ih := subst_self (xs := xs) body
    simp only [Spec.subst, Spec.openBody, List.map_cons] at ih ⊢
    rw [ih]
    by_cases h : s ∈ xs
    · rw [if_pos h]
      have hne : xs ≠ [] := by rintro rfl; cases h
      rw [if_neg hne]
      have hk : ∀ (ys : List Str) (i : Nat), Spec.paramIndex ys s = some i → (ys.map fun x => [Item.other x]).getD i [] = [Item.other s] := by
        intro ys
        induction ys with
        | nil => intro i hi; cases hi
        | cons y ys ih =>
          intro i hi
          unfold Spec.paramIndex at hi
          split at hi
          · next hy => cases hi; simp [hy]
          · cases hp : Spec.paramIndex ys s with
            | none => rw [hp] at hi; cases hi
            | some j =>
              rw [hp] at hi
              cases hi
              simpa using ih j hp
      cases hi : Spec.paramIndex xs s with
      | none => exact absurd h (paramIndex_none.1 hi)
      | some i => simp only [hk xs i hi, List.singleton_append]
    · rw [if_neg h, paramIndex_none.2 h]
      rfl

theorem expandsAll_params {D : Table} {H : List Str} : ∀ xs : List Str,
    ExpandsAll nameOf' D H (xs.map fun x => [.other x]) (xs.map fun x => [.other x])
  | [] => .nil
  | _ :: xs => .cons (.other .nil) (expandsAll_params xs)

/-- What `f` expands to is what a macro defined as a call of `f` expands to. -/
theorem expands_alias (L : E.Lawful) {D : Table} {f g : Str} {xs body : List Str} (hf : D f = some (.fn xs body)) (hell : c!"..." ∉ xs)
    (hn : nameOf E f = some f) (hx : f ∉ xs) (hxs : ∀ x ∈ xs, nameOf E x = some x) (hne : f ≠ g) (hu : ¬ Uses (nameOf E) D f g)
    {out : List Item} (h : Expands (nameOf E) D [f] (Spec.openBody (nameOf E) xs body) out) :
    Expands (nameOf E) D [g] (Spec.openBody (nameOf E) xs (callText f (xs.map fun x => [x]))) out := by
  have hw := wordy_of_names L hxs
  rw [openBody_call L hn hx hw]
  have h1 : Expands (nameOf E) D [f, g] (Spec.openBody (nameOf E) xs body) out := by
    refine expands_under hf hne hu ?_ h
    intro id p hm
    obtain ⟨s, hs, he⟩ := List.mem_map.1 hm
    refine ⟨s, hs, ?_⟩
    split at he
    · cases he
    · unfold Spec.item at he
      split at he
      · next y hy => injection he with h1 _; rw [hy, h1]
      · cases he
  rw [← subst_self body] at h1
  have h2 := Expands.call (args := if xs = [] then [[]] else xs.map fun x => [.other x])
    (args' := if xs = [] then [[]] else xs.map fun x => [.other x]) (H := [g]) (id := f) (rest := []) (out := []) (b := out)
    (ts := .other c!"(" :: Spec.commaJoin (if xs = [] then [[]] else xs.map fun x => [.other x]) ++ .other c!")" :: [])
    (by simpa using hne) hf hell ⟨?_, ?_, rfl⟩ ?_ ?_ h1 .nil
  · simpa using h2
  · split
    · simp
    · next h => simpa using h
  · intro a ha
    split at ha
    · obtain rfl := List.mem_singleton.1 ha; exact .nil
    · obtain ⟨x, hx, rfl⟩ := List.mem_map.1 ha
      exact .other (hw x hx).2.1 (hw x hx).2.2 .nil
  · by_cases h : xs = []
    · exact .inr ⟨h, by rw [if_pos h]⟩
    · exact .inl (by rw [if_neg h]; simp)
  · split
    · exact .cons .nil .nil
    · exact expandsAll_params xs

/-- **C112**: let `#define f(xs) body` and `#define g(xs) f(xs)`, and let `f` not use `g`.  If the textbook rules expand `f`, then the
macros `f` and `g` have the same parameters and the same expansion, or the same error is reported. -/
theorem C112_fn (E : Env) (L : E.Lawful) (h : List Op) (hP : Spec.Plain (nameOf E) (Table.run h)) (f g : Str) (xs body : List Str)
    (hf : Table.run h f = some (.fn xs body)) (hg : Table.run h g = some (.fn xs (callText f (xs.map fun x => [x]))))
    (hell : c!"..." ∉ xs) (hn : nameOf E f = some f) (hx : f ∉ xs) (hne : f ≠ g) (hu : ¬ Uses (nameOf E) (Table.run h) f g)
    (out : List Item) (hout : Expands (nameOf E) (Table.run h) [f] (Spec.openBody (nameOf E) xs body) out) :
    ∃ r, Returns (fun k => (MacroSet.run h).expandFn E k f) r ∧ Returns (fun k => (MacroSet.run h).expandFn E k g) r := by
  obtain ⟨_, _, named', hpar, _, hnm⟩ := hP.fn f xs body hf
  have hnn : ∀ p ∈ xs, nameOf E p = some p := by
    rcases hpar with rfl | rfl
    · exact fun p hp => (hnm p hp).1
    · exact absurd (by simp) hell
  have h2 := expands_alias L hf hell hn hx hnn hne hu hout
  obtain ⟨P, N, hPn, _, _, hN⟩ := expandFn_runs (variadic := false) L (agrees_run h) hP (by simpa using hf) hell hout
  obtain ⟨Q, M, hQn, _, _, hM⟩ := expandFn_runs (variadic := false) L (agrees_run h) hP (by simpa using hg) hell h2
  have ht : tokIn Q = tokIn P := by
    funext t
    cases t with
    | name id p => cases p <;> rfl
    | other s => simp only [tokIn, hPn, hQn]
  rw [ht] at hM
  refine ⟨_, ⟨?_, N, hN⟩, ?_, M, hM⟩
  all_goals
    split
    · next e he =>
      intro h
      cases h
      exact detokenize_ne_diverge _ _ he
    · simp

/-- The same for variable-like macros: `#define b body` and `#define a b`. -/
theorem C112_var (E : Env) (L : E.Lawful) (h : List Op) (hP : Spec.Plain (nameOf E) (Table.run h)) (a b : Str) (body : List Str)
    (hb : Table.run h b = some (.var body)) (ha : Table.run h a = some (.var [b])) (hn : nameOf E b = some b) (hne : b ≠ a)
    (hu : ¬ Uses (nameOf E) (Table.run h) b a) (out : List Item)
    (hout : Expands (nameOf E) (Table.run h) [b] (body.map (Spec.item (nameOf E))) out) :
    ∃ r, Returns (fun k => (MacroSet.run h).expandVar E k b) r ∧ Returns (fun k => (MacroSet.run h).expandVar E k a) r := by
  have h1 : Expands (nameOf E) (Table.run h) [a] ([b].map (Spec.item (nameOf E))) out := by
    have h3 : Expands (nameOf E) (Table.run h) [b, a] (body.map (Spec.item (nameOf E))) out := by
      refine expands_under hb hne hu ?_ hout
      intro id p hm
      obtain ⟨s, hs, he⟩ := List.mem_map.1 hm
      refine ⟨s, hs, ?_⟩
      unfold Spec.item at he
      split at he
      · next y hy => injection he with h1 _; rw [hy, h1]
      · cases he
    have h4 := Expands.object (H := [a]) (ts := []) (out := []) (by simpa using hne) hb h3 .nil
    simpa [Spec.item, hn] using h4
  have run : ∀ {x : Str} {bd : List Str}, Table.run h x = some (.var bd) →
      Expands (nameOf E) (Table.run h) [x] (bd.map (Spec.item (nameOf E))) out →
      Returns (fun k => (MacroSet.run h).expandVar E k x) (detokenize 0 (out.map (tokOf E))) := by
    intro x bd hd hx
    have hb' : PlainInput bd := hP.var x bd hd
    have hS : SameHidden (setInsert [] x) [x] := by
      intro id hid; simp [setInsert]
    obtain ⟨_, _, h3⟩ := expands_good L (agrees_run h) hP hx _ hS hb'.ok
    obtain ⟨N, hN⟩ := h3.nil_pre
    have hv : (MacroSet.run h).var.get x = some bd := by rw [(agrees_run h x).1, hd]
    refine ⟨detokenize_ne_diverge _ _, N, ?_⟩
    simp only [MacroSet.expandVar, hv, expandVarMacroBody_plain hb', hN N (Nat.le_refl _)]
  exact ⟨_, run hb hout, run ha h1⟩

/-- The text of a call of `f` with the parameters of the variadic macro it stands in. -/
theorem openBody_callVar (L : E.Lawful) {f : Str} (hn : nameOf E f = some f) {xs : List Str} (hf : f ∉ xs) (hw : Wordy (nameOf E) xs) :
    Spec.openBody (nameOf E) xs (callText f ((xs ++ [c!"__VA_ARGS__"]).map fun x => [x])) =
      .name f false :: (.other c!"(" :: Spec.commaJoin ((xs ++ [c!"__VA_ARGS__"]).map fun x => [.other x]) ++ .other c!")" :: []) := by
  have hb : ∀ s, (Spec.IsBracket s ∨ s = c!",") → s ∉ xs := fun s hs hm => (hw s hm).2.elim fun h1 h2 => hs.elim h1 h2
  have hl : Spec.item (nameOf E) c!"(" = .other c!"(" := item_punct L (by decide)
  have hr : Spec.item (nameOf E) c!")" = .other c!")" := item_punct L (by decide)
  have hc : Spec.item (nameOf E) c!"," = .other c!"," := item_punct L (by decide)
  have hlist : ∀ ys : List Str, (∀ y ∈ ys, (if y ∈ xs then Item.other y else Spec.item (nameOf E) y) = .other y) →
      (withCommas (ys.map fun x => [x])).map (fun s => if s ∈ xs then Item.other s else Spec.item (nameOf E) s) =
        Spec.commaJoin (ys.map fun x => [.other x]) := by
    intro ys
    induction ys with
    | nil => intro _; rfl
    | cons y ys ih =>
      intro hy
      have h1 := ih fun z hz => hy z (List.mem_cons_of_mem _ hz)
      have h2 := hy y List.mem_cons_self
      cases ys with
      | nil => simp only [List.map_cons, List.map_nil, withCommas, Spec.commaJoin, h2]
      | cons z zs =>
        simp only [List.map_cons, withCommas, Spec.commaJoin, List.map_append, List.map_nil, List.singleton_append,
          h2, if_neg (hb c!"," (.inr rfl)), hc] at h1 ⊢
        rw [← h1]
  have hfi : Spec.item (nameOf E) f = .name f false := by simp only [Spec.item, hn]
  have hall : ∀ y ∈ xs ++ [c!"__VA_ARGS__"], (if y ∈ xs then Item.other y else Spec.item (nameOf E) y) = .other y := by
    intro y hy
    split
    · rfl
    · next h =>
      obtain rfl : y = c!"__VA_ARGS__" := by simpa [h] using hy
      simp only [Spec.item, nameOf_varArgs]
  have h3 := hlist _ hall
  simp only [Spec.openBody, callText, List.cons_append, List.map_cons, List.map_append, List.map_nil, if_neg hf,
    if_neg (hb c!"(" (.inl (.inl rfl))), if_neg (hb c!")" (.inl (.inr (.inl rfl)))), hl, hr, hfi] at h3 ⊢
  rw [h3]

/-- Parameters put in place of themselves, in a variadic macro. -/
theorem subst_selfVar {xs : List Str} : ∀ body : List Str,
    Spec.subst (nameOf E) xs (xs.map fun x => [.other x]) (some [.other c!"__VA_ARGS__"]) body = Spec.openBody (nameOf E) xs body
  | [] => rfl
  | s :: body => by
    have ih := subst_selfVar (xs := xs) body
    simp only [Spec.subst, Spec.openBody, List.map_cons] at ih ⊢
    rw [ih]
    by_cases h : s ∈ xs
    · rw [if_pos h]
      have hk : ∀ (ys : List Str) (i : Nat), Spec.paramIndex ys s = some i → (ys.map fun x => [Item.other x]).getD i [] = [Item.other s] := by
        intro ys
        induction ys with
        | nil => intro i hi; cases hi
        | cons y ys ih =>
          intro i hi
          unfold Spec.paramIndex at hi
          split at hi
          · next hy => cases hi; simp [hy]
          · cases hp : Spec.paramIndex ys s with
            | none => rw [hp] at hi; cases hi
            | some j =>
              rw [hp] at hi
              cases hi
              simpa using ih j hp
      cases hi : Spec.paramIndex xs s with
      | none => exact absurd h (paramIndex_none.1 hi)
      | some i => simp only [hk xs i hi, List.singleton_append]
    · rw [if_neg h, paramIndex_none.2 h]
      by_cases hv : s = c!"__VA_ARGS__"
      · subst hv
        simp only [if_true, Spec.item, nameOf_varArgs, List.singleton_append]
      · simp only [if_neg hv, List.singleton_append]

/-- The same for variadic macros: `#define f(xs, ...) body` and `#define g(xs, ...) f(xs, __VA_ARGS__)`. -/
theorem C112_variadic (E : Env) (L : E.Lawful) (h : List Op) (hP : Spec.Plain (nameOf E) (Table.run h)) (f g : Str) (xs body : List Str)
    (hf : Table.run h f = some (.fn (xs ++ [c!"..."]) body))
    (hg : Table.run h g = some (.fn (xs ++ [c!"..."]) (callText f ((xs ++ [c!"__VA_ARGS__"]).map fun x => [x]))))
    (hell : c!"..." ∉ xs) (hn : nameOf E f = some f) (hx : f ∉ xs) (hne : f ≠ g) (hu : ¬ Uses (nameOf E) (Table.run h) f g)
    (out : List Item) (hout : Expands (nameOf E) (Table.run h) [f] (Spec.openBody (nameOf E) xs body) out) :
    ∃ r, Returns (fun k => (MacroSet.run h).expandFn E k f) r ∧ Returns (fun k => (MacroSet.run h).expandFn E k g) r := by
  obtain ⟨_, _, named', hpar, _, hnm⟩ := hP.fn f _ body hf
  have hnn : ∀ p ∈ xs, nameOf E p = some p := by
    rcases hpar with rfl | hpar
    · exact absurd rfl (hnm c!"..." (by simp)).2
    · obtain ⟨rfl, _⟩ := List.append_inj' hpar rfl
      exact fun p hp => (hnm p hp).1
  have hw := wordy_of_names L hnn
  have h2 : Expands (nameOf E) (Table.run h) [g] (Spec.openBody (nameOf E) xs (callText f ((xs ++ [c!"__VA_ARGS__"]).map fun x => [x]))) out := by
    rw [openBody_callVar L hn hx hw]
    have h1 : Expands (nameOf E) (Table.run h) [f, g] (Spec.openBody (nameOf E) xs body) out := by
      refine expands_under hf hne hu ?_ hout
      intro id p hm
      obtain ⟨s, hs, he⟩ := List.mem_map.1 hm
      refine ⟨s, hs, ?_⟩
      split at he
      · cases he
      · unfold Spec.item at he
        split at he
        · next y hy => injection he with h1 _; rw [hy, h1]
        · cases he
    rw [← subst_selfVar body] at h1
    have h3 := Expands.callVariadic (H := [g]) (id := f) (params := xs) (rest := []) (out := []) (b := out)
      (args := (xs ++ [c!"__VA_ARGS__"]).map fun x => [.other x]) (args' := xs.map fun x => [.other x]) (va := [.other c!"__VA_ARGS__"])
      (ts := .other c!"(" :: Spec.commaJoin ((xs ++ [c!"__VA_ARGS__"]).map fun x => [.other x]) ++ .other c!")" :: [])
      (by simpa using hne) hf hell ⟨by simp, ?_, rfl⟩ (by simp) ?_ ?_ h1 .nil
    · simpa using h3
    · intro a ha
      obtain ⟨x, hx, rfl⟩ := List.mem_map.1 ha
      rcases List.mem_append.1 hx with hx | hx
      · exact .other (hw x hx).2.1 (hw x hx).2.2 .nil
      · obtain rfl := List.mem_singleton.1 hx
        exact .other (by unfold Spec.IsBracket; decide) (by decide) .nil
    · rw [List.map_append, show xs.length = (xs.map fun x => [Item.other x]).length by simp, List.take_left]
      exact expandsAll_params xs
    · rw [List.map_append, show xs.length = (xs.map fun x => [Item.other x]).length by simp, List.drop_left]
      exact .other .nil
  obtain ⟨P, N, hPn, _, _, hN⟩ := expandFn_runs (variadic := true) L (agrees_run h) hP (by simpa using hf) hell hout
  obtain ⟨Q, M, hQn, _, _, hM⟩ := expandFn_runs (variadic := true) L (agrees_run h) hP (by simpa using hg) hell h2
  have ht : tokIn Q = tokIn P := by
    funext t
    cases t with
    | name id p => cases p <;> rfl
    | other s => simp only [tokIn, hPn, hQn]
  rw [ht] at hM
  refine ⟨_, ⟨?_, N, hN⟩, ?_, M, hM⟩
  all_goals
    split
    · next e he =>
      intro h
      cases h
      exact detokenize_ne_diverge _ _ he
    · simp

/-- So the constants are the same: with enough stack, expanding, parsing and generating give the same for `a` and `b`, be it a constant or
an error. -/
theorem C112_const (C : Ctx) (L : C.env.Lawful) (h : List Op) (hP : Spec.Plain (nameOf C.env) (Table.run h)) (a b : Str) (body : List Str)
    (hb : Table.run h b = some (.var body)) (ha : Table.run h a = some (.var [b])) (hn : nameOf C.env b = some b)
    (hia : isIdentifier C.env a = true) (hib : isIdentifier C.env b = true) (hne : b ≠ a)
    (hu : ¬ Uses (nameOf C.env) (Table.run h) b a) (out : List Item)
    (hout : Expands (nameOf C.env) (Table.run h) [b] (body.map (Spec.item (nameOf C.env))) out) :
    ∃ N, ∀ n ≥ N, pipeVar n C h a = pipeVar n C h b := by
  obtain ⟨r, ⟨h1, n1, h2⟩, _, n2, h3⟩ := C112_var C.env L h hP a b body hb ha hn hne hu out hout
  refine ⟨max n1 n2, fun n hn' => ?_⟩
  have e1 : (MacroSet.run h).expandVar C.env n b = r := by
    rw [← h2]; exact (expandVar_le C.env _ (show n1 ≤ n by omega) b).eq (fun he => h1 (h2.symm.trans he))
  have e2 : (MacroSet.run h).expandVar C.env n a = r := by
    rw [← h3]; exact (expandVar_le C.env _ (show n2 ≤ n by omega) a).eq (fun he => h1 (h3.symm.trans he))
  simp only [pipeVar, e1, e2]
  cases r with
  | error e => rfl
  | ok ts =>
    simp only [VarMacro.parse, hia, hib, if_true]
    cases MacroBody.parse C.env ts with
    | none => rfl
    | some q => rfl

/-- In well-nested sets of definitions (see C07) the textbook rules expand every macro. -/
theorem C112_fn_nested (E : Env) (L : E.Lawful) (h : List Op) (hP : Spec.Plain (nameOf E) (Table.run h))
    (hW : Spec.WellNested (nameOf E) (Table.run h)) (f g : Str) (xs body : List Str)
    (hf : Table.run h f = some (.fn xs body)) (hg : Table.run h g = some (.fn xs (callText f (xs.map fun x => [x]))))
    (hn : nameOf E f = some f) (hx : f ∉ xs) (hne : f ≠ g) (hu : ¬ Uses (nameOf E) (Table.run h) f g) :
    ∃ r, Returns (fun k => (MacroSet.run h).expandFn E k f) r ∧ Returns (fun k => (MacroSet.run h).expandFn E k g) r := by
  obtain ⟨hell, hbc, _⟩ := hW.fn f xs body hf
  obtain ⟨_, _, named', hpar, _, hnm⟩ := hP.fn f xs body hf
  have hnn : ∀ p ∈ xs, nameOf E p = some p := by
    rcases hpar with rfl | rfl
    · exact fun p hp => (hnm p hp).1
    · exact absurd (by simp) hell
  obtain ⟨out, hout⟩ := expands_total hW (agrees_finite (agrees_run h)) _ [f] _ (Nat.lt_succ_self _)
    (openBody_complete (wordy_of_names L hnn) hbc)
  exact C112_fn E L h hP f g xs body hf hg hell hn hx hne hu out hout

/-! ## Examples -/

theorem uses_within {D : Table} {T : Str → Prop}
    (hT : ∀ x d w y, T x → D x = some d → w ∈ d.words → nameOf' w = some y → T y) {x y : Str} (h : Uses nameOf' D x y) : T x → T y := by
  induction h with
  | word hd hw hy => exact fun hx => hT _ _ _ _ hx hd hw hy
  | trans _ _ ih1 ih2 => exact fun hx => ih2 (ih1 hx)

/-- `#define LIMIT 100`, `#define MAX(a, b) (a > b ? a : b)`, `#define CLAMP(x) MAX(x, LIMIT) + CLAMP`, `#define TOP LIMIT` and
`#define BIGGER(a, b) MAX(a, b)`. -/
def aliasHistory : List Op :=
  clampHistory ++ [.defineVar c!"TOP" [c!"LIMIT"], .defineFn c!"BIGGER" [c!"a", c!"b"] [c!"MAX", c!"(", c!"a", c!",", c!"b", c!")"]]

theorem aliasHistory_plain : Spec.Plain (nameOf asciiEnv) (Table.run aliasHistory) := plain_of_check (by decide +kernel)

theorem aliasHistory_unused {n g : Str} (hg : g = c!"TOP" ∨ g = c!"BIGGER") (hn : n ≠ g) : ¬ Uses (nameOf asciiEnv) (Table.run aliasHistory) n g := by
  intro h
  refine uses_within (T := fun y => y ≠ g) ?_ h hn rfl
  intro x d w y _ hd hw hy
  have key : ∀ o ∈ aliasHistory, ∀ w ∈ Op.body o, nameOf asciiEnv w ≠ some c!"TOP" ∧ nameOf asciiEnv w ≠ some c!"BIGGER" := by decide +kernel
  rintro rfl
  rcases run_mem hd with ⟨b, h1, h2⟩ | ⟨p, b, h1, h2⟩
  all_goals
    subst h1
    have := key _ h2 w hw
    rcases hg with rfl | rfl
    · exact this.1 hy
    · exact this.2 hy

/-- `BIGGER` expands to what `MAX` expands to. -/
example : ∃ r, Returns (fun k => (MacroSet.run aliasHistory).expandFn asciiEnv k c!"MAX") r ∧
    Returns (fun k => (MacroSet.run aliasHistory).expandFn asciiEnv k c!"BIGGER") r := by
  refine C112_fn asciiEnv asciiEnv_lawful aliasHistory aliasHistory_plain c!"MAX" c!"BIGGER" [c!"a", c!"b"] _ rfl rfl (by decide)
    (by decide +kernel) (by decide) (by decide) (aliasHistory_unused (.inr rfl) (by decide))
    [.other c!"(", .other c!"a", .other c!">", .other c!"b", .other c!"?", .other c!"a", .other c!":", .other c!"b", .other c!")"] ?_
  rw [show Spec.openBody (nameOf asciiEnv) [c!"a", c!"b"] [c!"(", c!"a", c!">", c!"b", c!"?", c!"a", c!":", c!"b", c!")"] =
    [.other c!"(", .other c!"a", .other c!">", .other c!"b", .other c!"?", .other c!"a", .other c!":", .other c!"b", .other c!")"] from
    by decide +kernel]
  exact .other (.other (.other (.other (.other (.other (.other (.other (.other .nil))))))))

theorem aliasHistory_limit : Expands (nameOf asciiEnv) (Table.run aliasHistory) [c!"LIMIT"] ([c!"100"].map (Spec.item (nameOf asciiEnv)))
    [.other c!"100"] := by
  rw [show [c!"100"].map (Spec.item (nameOf asciiEnv)) = [.other c!"100"] from by decide +kernel]
  exact .other .nil

/-- `TOP` expands to what `LIMIT` expands to. -/
example : ∃ r, Returns (fun k => (MacroSet.run aliasHistory).expandVar asciiEnv k c!"LIMIT") r ∧
    Returns (fun k => (MacroSet.run aliasHistory).expandVar asciiEnv k c!"TOP") r :=
  C112_var asciiEnv asciiEnv_lawful aliasHistory aliasHistory_plain c!"TOP" c!"LIMIT" [c!"100"] rfl rfl
    (by decide +kernel) (by decide) (aliasHistory_unused (.inl rfl) (by decide)) _ aliasHistory_limit

/-- Both are `100`. -/
example : (MacroSet.run aliasHistory).expandVar asciiEnv 5 c!"TOP" = .ok [.lit (.int ⟨100, none⟩)] ∧
    (MacroSet.run aliasHistory).expandVar asciiEnv 5 c!"LIMIT" = .ok [.lit (.int ⟨100, none⟩)] := by decide +kernel

/-- The generated constants are the same. -/
example : ∃ N, ∀ n ≥ N, pipeVar n (Ctx.unit asciiEnv) aliasHistory c!"TOP" = pipeVar n (Ctx.unit asciiEnv) aliasHistory c!"LIMIT" :=
  C112_const (Ctx.unit asciiEnv) asciiEnv_lawful aliasHistory aliasHistory_plain c!"TOP" c!"LIMIT" [c!"100"] rfl rfl
    (by decide +kernel) (by decide +kernel) (by decide +kernel) (by decide) (aliasHistory_unused (.inl rfl) (by decide)) _ aliasHistory_limit

/-- `#define INC(x) (x + 1)` and `#define NEXT(x) INC(x)`. -/
def nextHistory : List Op :=
  [.defineFn c!"INC" [c!"x"] [c!"(", c!"x", c!"+", c!"1", c!")"], .defineFn c!"NEXT" [c!"x"] [c!"INC", c!"(", c!"x", c!")"]]

theorem nextHistory_defs {n : Str} {d : Def} (h : Table.run nextHistory n = some d) :
    (n = c!"INC" ∧ d = .fn [c!"x"] [c!"(", c!"x", c!"+", c!"1", c!")"]) ∨ (n = c!"NEXT" ∧ d = .fn [c!"x"] [c!"INC", c!"(", c!"x", c!")"]) := by
  simp only [nextHistory, Table.run, List.foldl, Table.step, Table.set, Table.empty] at h
  split at h
  · rename_i hn; simp only [Option.some.injEq] at h; exact .inr ⟨hn, h.symm⟩
  · split at h
    · rename_i hn; simp only [Option.some.injEq] at h; exact .inl ⟨hn, h.symm⟩
    · simp at h

theorem nextHistory_wellNested : Spec.WellNested (nameOf asciiEnv) (Table.run nextHistory) where
  var := by
    intro id body h
    rcases nextHistory_defs h with ⟨_, h⟩ | ⟨_, h⟩ <;> simp at h
  fn := by
    intro id params body h
    rcases nextHistory_defs h with ⟨_, h⟩ | ⟨_, h⟩ <;> simp only [Def.fn.injEq] at h <;> obtain ⟨rfl, rfl⟩ := h
    · rw [show Spec.placeholders (nameOf asciiEnv) [c!"x"] [c!"(", c!"x", c!"+", c!"1", c!")"] =
        [.other c!"(", .name c!"x" true, .other c!"+", .other c!"1", .other c!")"] from by decide +kernel]
      exact ⟨by decide, .other (.painted (.other (.other (.other .nil)))), argText_iff.2 (by decide)⟩
    · rw [show Spec.placeholders (nameOf asciiEnv) [c!"x"] [c!"INC", c!"(", c!"x", c!")"] =
        [.name c!"INC" false, .other c!"(", .name c!"x" true, .other c!")"] from by decide +kernel]
      refine ⟨by decide, ?_, argText_iff.2 (by decide)⟩
      refine .call (args := [[.name c!"x" true]]) rfl ⟨by simp, ?_, rfl⟩ (.inl rfl) ?_ .nil
      all_goals
        intro a ha
        simp only [List.mem_singleton] at ha
        subst ha
        first | exact .painted .nil | exact .name .nil

/-- `NEXT` expands to what `INC` expands to. -/
example : ∃ r, Returns (fun k => (MacroSet.run nextHistory).expandFn asciiEnv k c!"INC") r ∧
    Returns (fun k => (MacroSet.run nextHistory).expandFn asciiEnv k c!"NEXT") r := by
  refine C112_fn_nested asciiEnv asciiEnv_lawful nextHistory (plain_of_check (by decide +kernel)) nextHistory_wellNested c!"INC" c!"NEXT"
    [c!"x"] _ rfl rfl (by decide +kernel) (by decide) (by decide) ?_
  intro h
  refine uses_within (T := fun y => y ≠ c!"NEXT") ?_ h (by decide) rfl
  intro x d w y _ hd hw hy
  have key : ∀ o ∈ nextHistory, ∀ w ∈ Op.body o, nameOf asciiEnv w ≠ some c!"NEXT" := by decide +kernel
  rintro rfl
  rcases run_mem hd with ⟨b, h1, h2⟩ | ⟨p, b, h1, h2⟩
  all_goals
    subst h1
    exact key _ h2 w hw hy

/-- `#define REPORT(to, ...) write(to, 1, __VA_ARGS__)` and `#define LOG(to, ...) REPORT(to, __VA_ARGS__)`. -/
def logHistory : List Op :=
  [.defineFn c!"REPORT" [c!"to", c!"..."] [c!"write", c!"(", c!"to", c!",", c!"1", c!",", c!"__VA_ARGS__", c!")"],
   .defineFn c!"LOG" [c!"to", c!"..."] [c!"REPORT", c!"(", c!"to", c!",", c!"__VA_ARGS__", c!")"]]

/-- `LOG` expands to what `REPORT` expands to. -/
example : ∃ r, Returns (fun k => (MacroSet.run logHistory).expandFn asciiEnv k c!"REPORT") r ∧
    Returns (fun k => (MacroSet.run logHistory).expandFn asciiEnv k c!"LOG") r := by
  refine C112_variadic asciiEnv asciiEnv_lawful logHistory (plain_of_check (by decide +kernel)) c!"REPORT" c!"LOG"
    [c!"to"] _ rfl rfl (by decide) (by decide +kernel) (by decide) (by decide) ?_
    [.name c!"write" false, .other c!"(", .other c!"to", .other c!",", .other c!"1", .other c!",", .other c!"__VA_ARGS__", .other c!")"] ?_
  · intro h
    refine uses_within (T := fun y => y ≠ c!"LOG") ?_ h (by decide) rfl
    intro x d w y _ hd hw hy
    have key : ∀ o ∈ logHistory, ∀ w ∈ Op.body o, nameOf asciiEnv w ≠ some c!"LOG" := by decide +kernel
    rintro rfl
    rcases run_mem hd with ⟨b, h1, h2⟩ | ⟨p, b, h1, h2⟩
    all_goals
      subst h1
      exact key _ h2 w hw hy
  · rw [show Spec.openBody (nameOf asciiEnv) [c!"to"] [c!"write", c!"(", c!"to", c!",", c!"1", c!",", c!"__VA_ARGS__", c!")"] =
      [.name c!"write" false, .other c!"(", .other c!"to", .other c!",", .other c!"1", .other c!",", .other c!"__VA_ARGS__", .other c!")"] from
      by decide +kernel]
    exact .undefined (by decide) rfl (.other (.other (.other (.other (.other (.other (.other .nil)))))))

/-- What it is. -/
example : (MacroSet.run logHistory).expandFn asciiEnv 6 c!"LOG" = .ok ([.ident c!"to", .punct c!"..."],
    [.ident c!"write", .punct c!"(", .arg 0, .punct c!",", .lit (.int ⟨1, none⟩), .punct c!",", .arg 1, .punct c!")"]) := by decide +kernel

/-- The other macro must not use the new name: of `#define b a + 1` and `#define a b`, the first is `b + 1`, the second `a + 1`. -/
theorem C112_restriction_needed :
    Returns (fun k => (MacroSet.run [.defineVar c!"b" [c!"a", c!"+", c!"1"], .defineVar c!"a" [c!"b"]]).expandVar asciiEnv k c!"b")
      (.ok [.ident c!"b", .punct c!"+", .lit (.int ⟨1, none⟩)]) ∧
    Returns (fun k => (MacroSet.run [.defineVar c!"b" [c!"a", c!"+", c!"1"], .defineVar c!"a" [c!"b"]]).expandVar asciiEnv k c!"a")
      (.ok [.ident c!"a", .punct c!"+", .lit (.int ⟨1, none⟩)]) :=
  ⟨⟨by simp, 6, by decide +kernel⟩, ⟨by simp, 6, by decide +kernel⟩⟩

end CMacro
