import Verif.Spec.Comments
import Verif.Props.Texts

/-!
# C108: comments make no difference to expansion
-/

namespace CMacro.Spec

/-- The same call without the comments of the body. -/
def Op.bare : Op → Op
  | .defineVar n b => .defineVar n (withoutComments b)
  | .defineFn n p b => .defineFn n p (withoutComments b)
  | o => o

/-- The same definition without the comments of the body. -/
def Def.bare : Def → Def
  | .var b => .var (withoutComments b)
  | .fn p b => .fn p (withoutComments b)

/-- Not a comment. -/
def Item.counts : Item → Bool
  | .name _ _ => true
  | .other s => !decide (BlockComment s)

/-- The text without its comments. -/
def bareText (ts : List Item) : List Item := ts.filter Item.counts

end CMacro.Spec

namespace CMacro
open Spec (Op Def Table Item Expands ExpandsAll Complete BlockComment bareText Call ArgText Balanced)

/-- The result without comments. -/
def Spec.bareResult : Res (List MacroToken) → Res (List MacroToken)
  | .ok ts => .ok (Spec.uncomment ts)
  | .error e => .error e

theorem bare_append (a b : List Item) : bareText (a ++ b) = bareText a ++ bareText b := List.filter_append ..

theorem bare_name (id : Str) (p : Bool) (ts : List Item) : bareText (.name id p :: ts) = .name id p :: bareText ts := rfl

theorem bare_other {s : Str} (h : ¬ BlockComment s) (ts : List Item) : bareText (.other s :: ts) = .other s :: bareText ts := by
  unfold bareText
  rw [List.filter_cons_of_pos]
  simp [Item.counts, h]

theorem bare_comment {s : Str} (h : BlockComment s) (ts : List Item) : bareText (.other s :: ts) = bareText ts := by
  unfold bareText
  rw [List.filter_cons_of_neg]
  simp [Item.counts, h]

theorem bracket_counts {s : Str} (h : Spec.IsBracket s) : ¬ BlockComment s := by
  rcases h with rfl | rfl | rfl | rfl | rfl | rfl <;> decide

theorem brackets_count {o c : Str} (h : Spec.Brackets o c) : ¬ BlockComment o ∧ ¬ BlockComment c := by
  rcases h with ⟨rfl, rfl⟩ | ⟨rfl, rfl⟩ | ⟨rfl, rfl⟩ <;> decide

theorem Spec.Balanced.bare {ts : List Item} (h : Balanced ts) : Balanced (bareText ts) := by
  induction h with
  | nil => exact .nil
  | name _ ih => rw [bare_name]; exact .name ih
  | @other s ts h1 _ ih =>
    by_cases hc : BlockComment s
    · rw [bare_comment hc]; exact ih
    · rw [bare_other hc]; exact .other h1 ih
  | @group o c inner ts hb _ _ ih1 ih2 =>
    obtain ⟨h1, h2⟩ := brackets_count hb
    rw [bare_append, bare_other h1, bare_other h2]
    exact .group hb ih1 ih2

theorem Spec.ArgText.bare {ts : List Item} (h : ArgText ts) : ArgText (bareText ts) := by
  induction h with
  | nil => exact .nil
  | name _ ih => rw [bare_name]; exact .name ih
  | @other s ts h1 h2 _ ih =>
    by_cases hc : BlockComment s
    · rw [bare_comment hc]; exact ih
    · rw [bare_other hc]; exact .other h1 h2 ih
  | @group o c inner ts hb hi _ ih2 =>
    obtain ⟨h1, h2⟩ := brackets_count hb
    rw [bare_append, bare_other h1, bare_other h2]
    exact .group hb hi.bare ih2

theorem commaJoin_bare : ∀ args : List (List Item), Spec.commaJoin (args.map bareText) = bareText (Spec.commaJoin args)
  | [] => rfl
  | [a] => rfl
  | a :: b :: as => by
    have ih := commaJoin_bare (b :: as)
    simp only [List.map_cons, Spec.commaJoin] at ih ⊢
    rw [bare_append, bare_other (by decide), ih]

theorem Spec.Call.bare {args : List (List Item)} {ts rest : List Item} (h : Call args ts rest) :
    Call (args.map bareText) (bareText ts) (bareText rest) := by
  obtain ⟨h1, h2, rfl⟩ := h
  refine ⟨by simpa using h1, ?_, ?_⟩
  · intro a ha
    obtain ⟨b, hb, rfl⟩ := List.mem_map.1 ha
    exact (h2 b hb).bare
  · rw [bare_append, bare_other (by decide), bare_other (by decide), commaJoin_bare]

theorem Spec.ArityOk.bare {params : List Str} {args : List (List Item)} (h : Spec.ArityOk params args) :
    Spec.ArityOk params (args.map bareText) := by
  rcases h with h | ⟨h1, rfl⟩
  · exact .inl (by rw [List.length_map]; exact h)
  · exact .inr ⟨h1, rfl⟩

variable {E : Env}

theorem nameOf_comment (L : E.Lawful) {s : Str} (h : BlockComment s) : nameOf E s = none := by
  obtain ⟨t, rfl, ht⟩ := h
  cases hn : nameOf E (c!"/*" ++ t ++ c!"*/") with
  | none => rfl
  | some id =>
    have h1 := fromStr_comment L ht
    unfold nameOf at hn
    split at hn
    · cases hn
    · next hv =>
      have : Token.fromStr E (c!"/*" ++ t ++ c!"*/") = .ident id := fromStr_ident.2 ⟨hv, hn⟩
      rw [h1] at this
      cases this

theorem item_comment (L : E.Lawful) {s : Str} (h : BlockComment s) : Spec.item (nameOf E) s = .other s := by
  unfold Spec.item
  rw [nameOf_comment L h]

theorem bare_item {s : Str} (h : ¬ BlockComment s) (ts : List Item) :
    bareText (Spec.item (nameOf E) s :: ts) = Spec.item (nameOf E) s :: bareText ts := by
  unfold Spec.item
  split
  · rfl
  · exact bare_other h ts

theorem withoutComments_cons_if (s : Str) (ts : List Str) :
    Spec.withoutComments (s :: ts) = if BlockComment s then Spec.withoutComments ts else s :: Spec.withoutComments ts := by
  unfold Spec.withoutComments
  by_cases h : BlockComment s <;> simp [h]

theorem bare_items (L : E.Lawful) : ∀ ts : List Str,
    (Spec.withoutComments ts).map (Spec.item (nameOf E)) = bareText (ts.map (Spec.item (nameOf E))) := by
  intro ts
  induction ts with
  | nil => rfl
  | cons s ts ih =>
    rw [withoutComments_cons_if, List.map_cons]
    split
    · next h => rw [item_comment L h, bare_comment h, ih]
    · next h => rw [bare_item h, List.map_cons, ih]

theorem paramIndex_mem : ∀ {ps : List Str} {s : Str} {i : Nat}, Spec.paramIndex ps s = some i → s ∈ ps
  | p :: ps, s, i, h => by
    unfold Spec.paramIndex at h
    split at h
    · next e => exact e ▸ List.mem_cons_self
    · obtain ⟨j, hj, _⟩ := Option.map_eq_some_iff.1 h
      exact List.mem_cons_of_mem _ (paramIndex_mem hj)

theorem getD_bare (args : List (List Item)) (i : Nat) : (args.map bareText).getD i [] = bareText (args.getD i []) := by
  simp only [List.getD_eq_getElem?_getD, List.getElem?_map]
  cases args[i]? <;> rfl

theorem subst_bare (L : E.Lawful) {params : List Str} (hp : ∀ p ∈ params, ¬ BlockComment p) (args : List (List Item)) (va : Option (List Item)) :
    ∀ body : List Str, bareText (Spec.subst (nameOf E) params args va body) =
      Spec.subst (nameOf E) params (args.map bareText) (va.map bareText) (Spec.withoutComments body) := by
  intro body
  induction body with
  | nil => rfl
  | cons s body ih =>
    rw [withoutComments_cons_if]
    have hone : ∀ x : List Item, bareText (x ++ Spec.subst (nameOf E) params args va body) =
        bareText x ++ Spec.subst (nameOf E) params (args.map bareText) (va.map bareText) (Spec.withoutComments body) := by
      intro x; rw [bare_append, ih]
    split
    · next hc =>
      have h1 : Spec.paramIndex params s = none := by
        cases h : Spec.paramIndex params s with
        | none => rfl
        | some i => exact absurd hc (hp s (paramIndex_mem h))
      have h2 : s ≠ c!"__VA_ARGS__" := by rintro rfl; exact absurd hc (by decide)
      have h3 : bareText [Spec.item (nameOf E) s] = [] := by rw [item_comment L hc, bare_comment hc]; rfl
      conv => lhs; unfold Spec.subst
      rw [h1]
      dsimp only
      rw [hone]
      cases va with
      | none => dsimp only; rw [h3]; rfl
      | some v => dsimp only; rw [if_neg h2, h3]; rfl
    · next hc =>
      have h3 : bareText [Spec.item (nameOf E) s] = [Spec.item (nameOf E) s] := bare_item hc []
      conv => lhs; unfold Spec.subst
      conv => rhs; unfold Spec.subst
      rw [hone]
      congr 1
      cases Spec.paramIndex params s with
      | some i => exact (getD_bare args i).symm
      | none =>
        cases va with
        | none => exact h3
        | some v =>
          dsimp only [Option.map_some]
          split
          · rfl
          · exact h3

/-! ## The table -/

theorem run_bare : ∀ (h : List Op) (t t' : Table), (∀ n, t' n = (t n).map Def.bare) →
    ∀ n, (h.map Op.bare).foldl Table.step t' n = (h.foldl Table.step t n).map Def.bare := by
  intro h
  induction h with
  | nil => exact fun _ _ ht => ht
  | cons o h ih =>
    intro t t' ht
    refine ih _ _ fun n => ?_
    have hset : ∀ (m : Str) (d : Option Def), t'.set m (d.map Def.bare) n = (t.set m d n).map Def.bare := by
      intro m d
      unfold Table.set
      split
      · rfl
      · exact ht n
    cases o with
    | defineVar m b => exact hset m (some (.var b))
    | defineFn m p b => exact hset m (some (.fn p b))
    | undefineVar m =>
      simp only [Op.bare, Table.step, ht m]
      cases t m with
      | none => exact ht n
      | some d =>
        cases d with
        | var b => exact hset m none
        | fn p b => exact ht n
    | undefineFn m =>
      simp only [Op.bare, Table.step, ht m]
      cases t m with
      | none => exact ht n
      | some d =>
        cases d with
        | fn p b => exact hset m none
        | var b => exact ht n

theorem table_bare (h : List Op) (n : Str) : Table.run (h.map Op.bare) n = (Table.run h n).map Def.bare :=
  run_bare h Table.empty Table.empty (fun _ => rfl) n

theorem mem_withoutComments {s : Str} {ts : List Str} (h : s ∈ Spec.withoutComments ts) : s ∈ ts := (List.mem_filter.1 h).1

theorem plain_bare {D D' : Table} (hD : ∀ n, D' n = (D n).map Def.bare) (hP : Spec.Plain (nameOf E) D) : Spec.Plain (nameOf E) D' where
  var := by
    intro id body h
    rw [hD] at h
    obtain ⟨d, hd, e⟩ := Option.map_eq_some_iff.1 h
    cases d with
    | fn p b => cases e
    | var b =>
      cases e
      obtain ⟨h1, h2⟩ := hP.var id b hd
      exact ⟨fun s hs => h1 s (mem_withoutComments hs), fun hv => h2 (mem_withoutComments hv)⟩
  fn := by
    intro id params body h
    rw [hD] at h
    obtain ⟨d, hd, e⟩ := Option.map_eq_some_iff.1 h
    cases d with
    | var b => cases e
    | fn p b =>
      cases e
      obtain ⟨h1, h2, h3⟩ := hP.fn id _ b hd
      exact ⟨fun s hs => h1 s (mem_withoutComments hs), fun hv => h2 (mem_withoutComments hv), h3⟩

/-- Parameters are no comments. -/
theorem params_count (L : E.Lawful) {D : Table} (hP : Spec.Plain (nameOf E) D) {id : Str} {params body : List Str}
    (h : D id = some (.fn params body)) : ∀ p ∈ params, ¬ BlockComment p := by
  obtain ⟨_, _, named, hn, _, hi⟩ := hP.fn id params body h
  intro p hp hc
  have hname : ∀ p ∈ named, ¬ BlockComment p := by
    intro p hp hc
    have := (hi p hp).1
    rw [nameOf_comment L hc] at this
    cases this
  rcases hn with rfl | rfl
  · exact hname p hp hc
  · rcases List.mem_append.1 hp with hp | hp
    · exact hname p hp hc
    · rw [List.mem_singleton.1 hp] at hc; exact absurd hc (by decide)

theorem expands_bare (L : E.Lawful) {D D' : Table} (hD : ∀ n, D' n = (D n).map Def.bare) (hP : Spec.Plain (nameOf E) D)
    {H : List Str} {ts out : List Item} (h : Expands (nameOf E) D H ts out) :
    Expands (nameOf E) D' H (bareText ts) (bareText out) := by
  refine Expands.rec (nameOf := nameOf E) (D := D)
    (motive_1 := fun H ts out _ => Expands (nameOf E) D' H (bareText ts) (bareText out))
    (motive_2 := fun H as as' _ => ExpandsAll (nameOf E) D' H (as.map bareText) (as'.map bareText))
    ?nil ?other ?painted ?hidden ?undefined ?object ?call ?callV ?anil ?acons h
  case nil => intros; exact .nil
  case other =>
    intro H s ts out _ ih
    by_cases hc : BlockComment s
    · rw [bare_comment hc, bare_comment hc]; exact ih
    · rw [bare_other hc, bare_other hc]; exact .other ih
  case painted => intro H s ts out _ ih; exact .painted ih
  case hidden => intro H s ts out hid _ ih; exact .hidden hid ih
  case undefined => intro H s ts out hid hd _ ih; exact .undefined hid (by rw [hD, hd]; rfl) ih
  case object =>
    intro H id body b ts out hid hd _ _ ih1 ih2
    rw [bare_append]
    rw [← bare_items L] at ih1
    exact .object hid (by rw [hD, hd]; rfl) ih1 ih2
  case call =>
    intro H id params body args args' b ts rest out hid hd hdots hcall har _ _ _ iha ihb ihr
    rw [bare_append]
    rw [subst_bare L (params_count L hP hd)] at ihb
    exact .call hid (by rw [hD, hd]; rfl) hdots hcall.bare har.bare iha ihb ihr
  case callV =>
    intro H id params body args args' va b ts rest out hid hd hdots hcall har _ _ _ _ iha ihv ihb ihr
    rw [bare_append]
    rw [subst_bare L (fun p hp => params_count L hP hd p (List.mem_append_left _ hp))] at ihb
    rw [List.map_take] at iha
    rw [← commaJoin_bare, List.map_drop] at ihv
    exact .callVariadic hid (by rw [hD, hd]; rfl) hdots hcall.bare (by rw [List.length_map]; exact har) iha ihv ihb ihr
  case anil => intros; exact .nil
  case acons => intro H a a' as as' _ _ ih1 ih2; exact .cons ih1 ih2

/-! ## Tokens -/

theorem comment_only {s c : Str} (h : Token.fromStr E s = .comment c) : BlockComment s := by
  unfold Token.fromStr at h
  split at h
  · cases h
  · repeat' split at h
    all_goals first
      | (next hc => cases h; exact ⟨c, (commentTryFrom_iff s c).1 hc⟩)
      | cases h

theorem detokenize_bare (L : E.Lawful) : ∀ out : List Item,
    detokenize 0 ((bareText out).map (tokOf E)) = Spec.bareResult (detokenize 0 (out.map (tokOf E))) := by
  intro out
  induction out with
  | nil => rfl
  | cons i out ih =>
    have hkeep : ∀ m : Option MacroToken, (tokOf E i).detokenize 0 = .ok m → (∀ x ∈ m, Spec.isRemark x = false) →
        detokenize 0 ((i :: bareText out).map (tokOf E)) = Spec.bareResult (detokenize 0 ((i :: out).map (tokOf E))) := by
      intro m hm hx
      simp only [List.map_cons, detokenize, hm, bind, Except.bind]
      rw [ih]
      cases detokenize 0 (out.map (tokOf E)) with
      | error e => rfl
      | ok ms =>
        cases m with
        | none => rfl
        | some x =>
          simp only [Spec.bareResult, Spec.uncomment, Option.toList, List.nil_append, List.cons_append]
          rw [List.filter_cons_of_pos]
          simp [hx x rfl]
    cases i with
    | name id p =>
      rw [bare_name]
      refine hkeep (some (.ident id)) (by cases p <;> rfl) ?_
      rintro _ ⟨⟩; rfl
    | other s =>
      by_cases hc : BlockComment s
      · rw [bare_comment hc, ih]
        obtain ⟨t, rfl, ht⟩ := hc
        have h1 : (tokOf E (.other (c!"/*" ++ t ++ c!"*/"))).detokenize 0 = .ok (some (.comment t)) := by
          show (Token.fromStr E _).detokenize 0 = _
          rw [fromStr_comment L ht]; rfl
        simp only [List.map_cons, detokenize, bind, Except.bind]
        rw [h1]
        cases detokenize 0 (out.map (tokOf E)) with
        | error e => rfl
        | ok ms => rfl
      · rw [bare_other hc]
        cases hd : (tokOf E (.other s)).detokenize 0 with
        | error e =>
          simp only [List.map_cons, detokenize, bind, Except.bind]
          rw [hd]
          rfl
        | ok m =>
          refine hkeep m hd ?_
          rintro x rfl
          have hf : ∀ c, Token.fromStr E s ≠ .comment c := fun c e => hc (comment_only e)
          change (Token.fromStr E s).detokenize 0 = _ at hd
          revert hd
          cases hq : Token.fromStr E s with
          | comment c => exact absurd hq (hf c)
          | nonRepl x => exact absurd hq (fromStr_ne_nonRepl E s x)
          | varArgs => intro hd; cases hd
          | plain s => intro hd; cases hd
          | placemarker => intro hd; cases hd
          | _ => intro hd; cases hd; rfl

theorem plainInput_bare {ts : List Str} (h : PlainInput ts) : PlainInput (Spec.withoutComments ts) :=
  ⟨fun s hs => h.1 s (mem_withoutComments hs), fun hv => h.2 (mem_withoutComments hv)⟩

/-! ## C108 -/

/-- Expanding after taking out all comments gives what expanding gives, without the comments. -/
def C108_statement : Prop :=
  ∀ (E : Env), E.Lawful → ∀ (h : List Op) (ts : List Str) (r : Res (List MacroToken)),
    Returns (fun k => (MacroSet.run h).expand E k ts) r →
    Returns (fun k => (MacroSet.run (h.map Op.bare)).expand E k (Spec.withoutComments ts)) (Spec.bareResult r)

/-- `#define F(x) x`: in `F /* c */ (1)` the macro is not called. -/
theorem C108_false : ¬ C108_statement := by
  intro H
  have h1 := H asciiEnv asciiEnv_lawful [.defineFn c!"F" [c!"x"] [c!"x"]] [c!"F", c!"/* c */", c!"(", c!"1", c!")"]
    (.ok [.ident c!"F", .comment c!" c ", .punct c!"(", .lit (.int ⟨1, none⟩), .punct c!")"]) ⟨by simp, 9, by decide +kernel⟩
  have h2 : Returns (fun k => (MacroSet.run ([Op.defineFn c!"F" [c!"x"] [c!"x"]].map Op.bare)).expand asciiEnv k
      (Spec.withoutComments [c!"F", c!"/* c */", c!"(", c!"1", c!")"])) (.ok [.lit (.int ⟨1, none⟩)]) := ⟨by simp, 9, by decide +kernel⟩
  exact absurd (expand_unique h1 h2) (by decide +kernel)

/-- `#define F() 7`: the call `F(/* none */)` is an error, `F()` is not. -/
theorem C108_false_empty :
    (MacroSet.run [.defineFn c!"F" [] [c!"7"]]).expand asciiEnv 9 [c!"F", c!"(", c!"/* none */", c!")"] =
      .error (.err (.fnMacroArgument c!"F" 0 1)) ∧
    (MacroSet.run [.defineFn c!"F" [] [c!"7"]]).expand asciiEnv 9 (Spec.withoutComments [c!"F", c!"(", c!"/* none */", c!")"]) =
      .ok [.lit (.int ⟨7, none⟩)] := by
  constructor <;> decide +kernel

/-- `#define S(x) # /* c */ x` is an error, `#define S(x) # x` is not. -/
theorem C108_false_stringify :
    (MacroSet.run [.defineFn c!"S" [c!"x"] [c!"#", c!"/* c */", c!"x"]]).expand asciiEnv 9 [c!"S", c!"(", c!"a", c!")"] =
      .error (.err .stringifyNonArgument) ∧
    (MacroSet.run ([Op.defineFn c!"S" [c!"x"] [c!"#", c!"/* c */", c!"x"]].map Op.bare)).expand asciiEnv 9 [c!"S", c!"(", c!"a", c!")"] =
      .ok [.lit (.string (.ordinary [97]))] := by
  constructor <;> decide +kernel

theorem returns_of_expandsVar (L : E.Lawful) {h : List Op} (hP : Spec.Plain (nameOf E) (Table.run h)) {n : Str} {b : List Str}
    (hn : Table.run h n = some (.var b)) {out : List Item}
    (hx : Expands (nameOf E) (Table.run h) [n] (b.map (Spec.item (nameOf E))) out) :
    Returns (fun k => (MacroSet.run h).expandVar E k n) (detokenize 0 (out.map (tokOf E))) := by
  have hb : PlainInput b := hP.var n b hn
  have hS : SameHidden (setInsert [] n) [n] := by
    intro id hid; simp [setInsert]
  obtain ⟨_, _, h3⟩ := expands_good L (agrees_run h) hP hx _ hS hb.ok
  obtain ⟨N, hN⟩ := h3.nil_pre
  have hv : (MacroSet.run h).var.get n = some b := by rw [(agrees_run h n).1, hn]
  refine ⟨detokenize_ne_diverge _ _, N, ?_⟩
  simp only [MacroSet.expandVar, hv, expandVarMacroBody_plain hb, hN N (Nat.le_refl _)]

theorem returns_bare (L : E.Lawful) {h : List Op} (hP : Spec.Plain (nameOf E) (Table.run h)) {ts : List Str} (hts : PlainInput ts)
    {out : List Item} (hx : Expands (nameOf E) (Table.run h) [] (ts.map (Spec.item (nameOf E))) out) {r : Res (List MacroToken)}
    (hr : Returns (fun k => (MacroSet.run h).expand E k ts) r) :
    Returns (fun k => (MacroSet.run (h.map Op.bare)).expand E k (Spec.withoutComments ts)) (Spec.bareResult r) := by
  rw [expand_unique hr (returns_of_expands L hP hts hx), ← detokenize_bare L]
  have := expands_bare L (table_bare h) hP hx
  rw [← bare_items L] at this
  exact returns_of_expands L (plain_bare (table_bare h) hP) (plainInput_bare hts) this

/-- **C108** for complete texts: comments may stand anywhere in texts and bodies but between the name of a function-like macro and its
arguments, and as the only thing in the parentheses of a call without arguments. -/
theorem C108_partial (E : Env) (L : E.Lawful) (h : List Op) (hP : Spec.Plain (nameOf E) (Table.run h))
    (hW : Spec.WellNested (nameOf E) (Table.run h)) (ts : List Str) (hts : PlainInput ts)
    (hc : Complete (Table.run h) (ts.map (Spec.item (nameOf E)))) (r : Res (List MacroToken)) :
    Returns (fun k => (MacroSet.run h).expand E k ts) r →
    Returns (fun k => (MacroSet.run (h.map Op.bare)).expand E k (Spec.withoutComments ts)) (Spec.bareResult r) := by
  obtain ⟨out, hout⟩ := expands_total hW (agrees_finite (agrees_run h)) _ [] _ (Nat.lt_succ_self _) hc
  exact returns_bare L hP hts hout

/-- **C108** with object-like macros only: comments may stand anywhere. -/
theorem C108_objects_partial (E : Env) (L : E.Lawful) (h : List Op) (hvar : ∀ n d, Table.run h n = some d → ∃ b, d = .var b)
    (hP : Spec.Plain (nameOf E) (Table.run h)) (ts : List Str) (hts : PlainInput ts) (r : Res (List MacroToken)) :
    Returns (fun k => (MacroSet.run h).expand E k ts) r →
    Returns (fun k => (MacroSet.run (h.map Op.bare)).expand E k (Spec.withoutComments ts)) (Spec.bareResult r) := by
  obtain ⟨out, hout⟩ := expands_total_var (nameOf := nameOf E) (agrees_finite (agrees_run h)) hvar _ [] (ts.map (Spec.item (nameOf E))) (Nat.le_refl _)
  exact returns_bare L hP hts hout

/-- **C108** for `expand_var_macro`. -/
theorem C108_var_partial (E : Env) (L : E.Lawful) (h : List Op) (hvar : ∀ n d, Table.run h n = some d → ∃ b, d = .var b)
    (hP : Spec.Plain (nameOf E) (Table.run h)) (n : Str) (r : Res (List MacroToken)) :
    Returns (fun k => (MacroSet.run h).expandVar E k n) r →
    Returns (fun k => (MacroSet.run (h.map Op.bare)).expandVar E k n) (Spec.bareResult r) := by
  intro hr
  cases hn : Table.run h n with
  | none =>
    have h1 : (MacroSet.run h).var.get n = none := by rw [(agrees_run h n).1, hn]
    have h2 : (MacroSet.run (h.map Op.bare)).var.get n = none := by rw [(agrees_run _ n).1, table_bare, hn]; rfl
    obtain ⟨hd, k, hk⟩ := hr
    simp only [MacroSet.expandVar, h1] at hk
    subst hk
    exact ⟨by simp [Spec.bareResult], 0, by simp only [MacroSet.expandVar, h2, Spec.bareResult]⟩
  | some d =>
    obtain ⟨b, rfl⟩ := hvar n d hn
    obtain ⟨out, hx⟩ := expands_total_var (nameOf := nameOf E) (agrees_finite (agrees_run h)) hvar _ [n] (b.map (Spec.item (nameOf E))) (Nat.le_refl _)
    rw [hr.unique (fun _ _ hnm => expandVar_le E _ hnm n) (returns_of_expandsVar L hP hn hx), ← detokenize_bare L]
    have := expands_bare L (table_bare h) hP hx
    rw [← bare_items L] at this
    exact returns_of_expandsVar L (plain_bare (table_bare h) hP) (by rw [table_bare, hn]; rfl) this

/-- `#define A /* a */ B + /* b */ A`, `#define B A * /* c */ 2`. -/
def remarkHistory : List Op :=
  [.defineVar c!"A" [c!"/* a */", c!"B", c!"+", c!"/* b */", c!"A"], .defineVar c!"B" [c!"A", c!"*", c!"/* c */", c!"2"]]

theorem remarkHistory_defs {n : Str} {d : Def} (h : Table.run remarkHistory n = some d) :
    (n = c!"A" ∧ d = .var [c!"/* a */", c!"B", c!"+", c!"/* b */", c!"A"]) ∨ (n = c!"B" ∧ d = .var [c!"A", c!"*", c!"/* c */", c!"2"]) := by
  simp only [remarkHistory, Table.run, List.foldl, Table.step, Table.set, Table.empty] at h
  split at h
  · rename_i hn; simp only [Option.some.injEq] at h; exact .inr ⟨hn, h.symm⟩
  · split at h
    · rename_i hn; simp only [Option.some.injEq] at h; exact .inl ⟨hn, h.symm⟩
    · simp at h

theorem remarkHistory_plain : Spec.Plain (nameOf asciiEnv) (Table.run remarkHistory) where
  var := by
    intro id body h
    rcases remarkHistory_defs h with ⟨_, h⟩ | ⟨_, h⟩ <;> cases h <;> decide
  fn := by
    intro id params body h
    rcases remarkHistory_defs h with ⟨_, h⟩ | ⟨_, h⟩ <;> cases h

/-- What `A` is with the comments, and hence without them. -/
example : Returns (fun k => (MacroSet.run (remarkHistory.map Op.bare)).expandVar asciiEnv k c!"A")
    (.ok [.ident c!"A", .punct c!"*", .lit (.int ⟨2, none⟩), .punct c!"+", .ident c!"A"]) :=
  C108_var_partial asciiEnv asciiEnv_lawful remarkHistory
    (fun _ _ h => by rcases remarkHistory_defs h with ⟨_, h⟩ | ⟨_, h⟩ <;> exact ⟨_, h⟩) remarkHistory_plain c!"A"
    (.ok [.comment c!" a ", .ident c!"A", .punct c!"*", .comment c!" c ", .lit (.int ⟨2, none⟩), .punct c!"+", .comment c!" b ", .ident c!"A"])
    ⟨by simp, 9, by decide +kernel⟩

/-- `f(/* two */ 2 /* . */)` with the recursive macros of `nestedHistory`. -/
example (r : Res (List MacroToken))
    (hr : Returns (fun k => (MacroSet.run nestedHistory).expand asciiEnv k [c!"f", c!"(", c!"/* two */", c!"2", c!"/* . */", c!")"]) r) :
    Returns (fun k => (MacroSet.run (nestedHistory.map Op.bare)).expand asciiEnv k [c!"f", c!"(", c!"2", c!")"]) (Spec.bareResult r) := by
  refine C108_partial asciiEnv asciiEnv_lawful nestedHistory nestedHistory_plain nestedHistory_wellNested
    [c!"f", c!"(", c!"/* two */", c!"2", c!"/* . */", c!")"] (by decide) ?_ r hr
  rw [show [c!"f", c!"(", c!"/* two */", c!"2", c!"/* . */", c!")"].map (Spec.item (nameOf asciiEnv)) =
    [.name c!"f" false, .other c!"(", .other c!"/* two */", .other c!"2", .other c!"/* . */", .other c!")"] from by decide +kernel]
  refine .call (args := [[.other c!"/* two */", .other c!"2", .other c!"/* . */"]]) rfl ⟨by simp, ?_, rfl⟩ (.inl rfl) ?_ .nil
  all_goals
    intro a ha
    simp only [List.mem_singleton] at ha
    subst ha
    first | exact .other (.other (.other .nil)) | exact argText_iff.2 (by decide)

end CMacro
