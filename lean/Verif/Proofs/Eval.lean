import Verif.Spec.Eval
import Verif.Proofs.Compose

/-!
# Lemmas for C93
-/

namespace CMacro
open Spec (Op Def Table Item Expands ExpandsAll IsIdent CText Gram Value Eval IntConst ArgText Balanced)

/-- The text of an expression of the level with the value, without names. -/
def GoodText (E : Env) (ℓ : Nat) (ss : List Str) (v : Int) : Prop :=
  ArgText (Spec.others ss) ∧ ∃ ts e, CText E ss ts ∧ Gram ℓ ts e ∧ Value e v ∧ NotName ts

/-- Text that expands to the text of such an expression. -/
def MakesText (E : Env) (D : Table) (H : List Str) (ℓ : Nat) (is : List Item) (v : Int) : Prop :=
  ArgText is ∧ ∃ ss, Expands (Spec.cName E) D H is (Spec.others ss) ∧ GoodText E ℓ ss v

variable {E : Env} {D : Table} {H : List Str}

theorem argText_matched {is : List Item} (h : ArgText is) : Balanced is :=
  brun_balanced _ _ (Nat.le_refl _) (brun_top (argText_brun h))

theorem argText_group {is : List Item} (h : ArgText is) : ArgText (.other c!"(" :: (is ++ [.other c!")"])) :=
  .group (.inl ⟨rfl, rfl⟩) (argText_matched h) .nil

theorem argText_one {w : Str} (h : ¬ Spec.IsBracket w) (hc : w ≠ c!",") : ArgText [.other w] := .other h hc .nil

theorem others_append (a b : List Str) : Spec.others (a ++ b) = Spec.others a ++ Spec.others b := List.map_append

theorem binary_noBracket {ℓ : Nat} {p : Str} {op : BinOp} (h : (ℓ, p, op) ∈ Spec.binaryOps) : ¬ Spec.IsBracket p ∧ p ≠ c!"," := by
  have : ∀ x ∈ Spec.binaryOps, ¬ (x.2.1 = c!"(" ∨ x.2.1 = c!")" ∨ x.2.1 = c!"[" ∨ x.2.1 = c!"]" ∨ x.2.1 = c!"{" ∨ x.2.1 = c!"}") ∧ x.2.1 ≠ c!"," := by
    decide
  exact this _ h

theorem lit_noBracket {s t : Str} {v : Nat} (h : IntConst s v) : ¬ Spec.IsBracket (s ++ t) ∧ s ++ t ≠ c!"," := by
  obtain ⟨c, r, rfl, hc⟩ := intConst_first h
  refine ⟨?_, ?_⟩
  · rintro (h | h | h | h | h | h) <;>
      · rw [List.cons_append] at h
        have := (List.cons.inj h).1
        subst this
        revert hc
        decide
  · intro h
    rw [List.cons_append] at h
    have := (List.cons.inj h).1
    subst this
    revert hc
    decide

/-! ## Putting texts together -/

theorem good_lit {s t : Str} {ty : Option BuiltInType} {v : Nat} (h : IntConst s v) (hv : v < 2 ^ 127)
    (ht : (t, ty) ∈ Spec.intSuffixes) : GoodText E 0 [s ++ t] v := by
  refine ⟨argText_one (lit_noBracket h).1 (lit_noBracket h).2, [.lit (.int ⟨BitVec.ofNat 128 v, ty⟩)], _, .cons (.int h hv ht) .nil, .lit, ?_, ?_⟩
  · have := Value.lit (n := ⟨BitVec.ofNat 128 v, ty⟩)
    rw [show (LitInt.mk (BitVec.ofNat 128 v) ty).value = BitVec.ofNat 128 v from rfl, toInt_ofNat hv] at this
    exact this
  · rintro t' n hn he
    rw [← (List.cons.inj he).1] at hn
    cases hn

theorem good_paren {ss : List Str} {v : Int} (h : GoodText E 12 ss v) : GoodText E 0 (c!"(" :: (ss ++ [c!")"])) v := by
  obtain ⟨h0, ts, e, h2, h3, h4, h5⟩ := h
  refine ⟨?_, _, e, .cons (.punct (by decide)) (CText.append h2 (punct_text (by decide))), .paren h3 h5, h4, notName_len (by simp)⟩
  have := argText_group h0
  simpa [Spec.others] using this

theorem good_plus {ss : List Str} {v : Int} (h : GoodText E 2 ss v) : GoodText E 2 (c!"+" :: ss) v := by
  obtain ⟨h0, ts, e, h2, h3, h4, h5⟩ := h
  exact ⟨.other (by unfold Spec.IsBracket; decide) (by decide) h0, _, .un .plus e, .cons (.punct (by decide)) h2, .pre (by decide) h3, .plus h4,
    fun t n hn he => gram_ne h3 (List.cons.inj he).2⟩

theorem good_neg {ss : List Str} {v : Int} (h : GoodText E 2 ss v) (hv : Spec.I128 (-v)) : GoodText E 2 (c!"-" :: ss) (-v) := by
  obtain ⟨h0, ts, e, h2, h3, h4, h5⟩ := h
  exact ⟨.other (by unfold Spec.IsBracket; decide) (by decide) h0, _, .un .minus e, .cons (.punct (by decide)) h2, .pre (by decide) h3, .neg h4 hv,
    fun t n hn he => gram_ne h3 (List.cons.inj he).2⟩

theorem good_bin {ℓ : Nat} {p : Str} {op : BinOp} {ss us : List Str} {a b v : Int} (hp : (ℓ + 1, p, op) ∈ Spec.binaryOps)
    (ha : GoodText E (ℓ + 1) ss a) (hb : GoodText E ℓ us b) (hv : Spec.BinValue op a b v) (hi : Spec.I128 v) : GoodText E (ℓ + 1) (ss ++ p :: us) v := by
  obtain ⟨h0, ts, e, h2, h3, h4, h5⟩ := ha
  obtain ⟨g0, tb, f, g2, g3, g4, g5⟩ := hb
  refine ⟨?_, _, .bin e op f, CText.append h2 (.cons (.punct (binary_punct hp)) g2), .bin hp h3 g3, .bin h4 g4 hv hi, ?_⟩
  · rw [others_append]
    exact ArgText.append h0 (.other (binary_noBracket hp).1 (binary_noBracket hp).2 g0)
  · refine notName_len ?_
    cases ts with
    | nil => exact absurd rfl (gram_ne h3)
    | cons _ _ => simp; omega

theorem good_up {ℓ : Nat} {ss : List Str} {v : Int} (h : GoodText E ℓ ss v) (hℓ : ℓ < 12) : GoodText E (ℓ + 1) ss v := by
  obtain ⟨h0, ts, e, h2, h3, h4, h5⟩ := h
  exact ⟨h0, ts, e, h2, .up h3 hℓ, h4, h5⟩

theorem makesText_good {ℓ : Nat} {ss : List Str} {v : Int} (h : GoodText E ℓ ss v) : MakesText E D H ℓ (Spec.others ss) v := by
  refine ⟨h.1, ss, ?_, h⟩
  clear h
  induction ss with
  | nil => exact .nil
  | cons s ss ih => exact .other ih

theorem makesText_paren {is : List Item} {v : Int} (h : MakesText E D H 12 is v) : MakesText E D H 0 (.other c!"(" :: (is ++ [.other c!")"])) v := by
  obtain ⟨h0, ss, h1, h2⟩ := h
  refine ⟨argText_group h0, _, ?_, good_paren h2⟩
  have := Expands.other (s := c!"(") (Expands.append' h1 (Expands.other (s := c!")") .nil))
  simpa [Spec.others] using this

theorem makesText_plus {is : List Item} {v : Int} (h : MakesText E D H 2 is v) : MakesText E D H 2 (.other c!"+" :: is) v := by
  obtain ⟨h0, ss, h1, h2⟩ := h
  exact ⟨.other (by unfold Spec.IsBracket; decide) (by decide) h0, _, .other h1, good_plus h2⟩

theorem makesText_neg {is : List Item} {v : Int} (h : MakesText E D H 2 is v) (hv : Spec.I128 (-v)) : MakesText E D H 2 (.other c!"-" :: is) (-v) := by
  obtain ⟨h0, ss, h1, h2⟩ := h
  exact ⟨.other (by unfold Spec.IsBracket; decide) (by decide) h0, _, .other h1, good_neg h2 hv⟩

theorem makesText_bin {ℓ : Nat} {p : Str} {op : BinOp} {is js : List Item} {a b v : Int} (hp : (ℓ + 1, p, op) ∈ Spec.binaryOps)
    (ha : MakesText E D H (ℓ + 1) is a) (hb : MakesText E D H ℓ js b) (hv : Spec.BinValue op a b v) (hi : Spec.I128 v) :
    MakesText E D H (ℓ + 1) (is ++ .other p :: js) v := by
  obtain ⟨h0, ss, h1, h2⟩ := ha
  obtain ⟨g0, us, g1, g2⟩ := hb
  refine ⟨ArgText.append h0 (.other (binary_noBracket hp).1 (binary_noBracket hp).2 g0), _, ?_, good_bin hp h2 g2 hv hi⟩
  rw [others_append]
  exact Expands.append' h1 (.other g1)

theorem makesText_up {ℓ : Nat} {is : List Item} {v : Int} (h : MakesText E D H ℓ is v) (hℓ : ℓ < 12) : MakesText E D H (ℓ + 1) is v :=
  ⟨h.1, h.2.choose, h.2.choose_spec.1, good_up h.2.choose_spec.2 hℓ⟩

/-! ## Parameters -/

/-- The arguments have the values of the parameters. -/
structure BoundBy (E : Env) (ps : List Str) (sss : List (List Str)) (ρ : Str → Option Int) : Prop where
  ident : ∀ p ∈ ps, IsIdent E.xidStart E.xidContinue p
  some : ∀ p v, ρ p = some v → ∃ i ss, Spec.paramIndex ps p = .some i ∧ sss[i]? = .some ss ∧ GoodText E 12 ss v
  none : ∀ p, ρ p = none → Spec.paramIndex ps p = .none

/-- The text of the words, with the arguments in place of the parameters. -/
noncomputable abbrev filled (E : Env) (ps : List Str) (sss : List (List Str)) (ws : List Str) : List Item :=
  Spec.subst (Spec.cName E) ps (sss.map Spec.others) none ws

theorem paramIndex_notMem {ps : List Str} {w : Str} (h : w ∉ ps) : Spec.paramIndex ps w = none := by
  induction ps with
  | nil => rfl
  | cons p ps ih =>
    rw [Spec.paramIndex, if_neg fun he => h (by rw [he]; exact List.mem_cons_self), ih fun hm => h (List.mem_cons_of_mem _ hm)]
    rfl

theorem filled_append (ps : List Str) (sss : List (List Str)) (a b : List Str) :
    filled E ps sss (a ++ b) = filled E ps sss a ++ filled E ps sss b := by
  induction a with
  | nil => rfl
  | cons w a ih => simp only [filled, List.cons_append, Spec.subst, List.append_assoc] at ih ⊢; rw [ih]

theorem filled_other {ps : List Str} {sss : List (List Str)} {ρ : Str → Option Int} (hb : BoundBy E ps sss ρ) {w : Str} (hw : NoName E w)
    (ws : List Str) : filled E ps sss (w :: ws) = .other w :: filled E ps sss ws := by
  simp only [filled, Spec.subst, paramIndex_notMem fun hm => hw.1 (hb.ident w hm), item_noName hw, List.cons_append, List.nil_append]

theorem filled_name {ps : List Str} {sss : List (List Str)} {ρ : Str → Option Int} (hb : BoundBy E ps sss ρ) {x : Str}
    (hx : IsIdent E.xidStart E.xidContinue x) (hv : x ≠ c!"__VA_ARGS__") (hρ : ρ x = none) (ws : List Str) :
    filled E ps sss (x :: ws) = .name x false :: filled E ps sss ws := by
  simp only [filled, Spec.subst, hb.none x hρ, item_name hx hv, List.cons_append, List.nil_append]

theorem filled_nil (ws : List Str) : filled E [] [] ws = ws.map (Spec.item (Spec.cName E)) := by
  induction ws with
  | nil => rfl
  | cons w ws ih => simp only [filled, Spec.subst, Spec.paramIndex, List.map_cons, List.cons_append, List.nil_append] at ih ⊢; rw [ih]

theorem boundBy_nil : BoundBy E [] [] (fun _ => none) :=
  ⟨by simp, by simp, fun _ _ => rfl⟩

theorem filled_comma (L : E.Lawful) {ps : List Str} {sss : List (List Str)} {ρ : Str → Option Int} (hb : BoundBy E ps sss ρ) :
    ∀ args : List (List Str), filled E ps sss (Spec.commaWords args) = Spec.commaJoin (args.map (filled E ps sss)) := by
  have hc : NoName E c!"," := by
    refine ⟨?_, by decide, by decide, by decide, by decide⟩
    rintro ⟨h | h, _⟩
    · rw [L.startAscii _ (by decide)] at h; revert h; decide
    · revert h; decide
  intro args
  induction args with
  | nil => rfl
  | cons a as ih =>
    cases as with
    | nil => rfl
    | cons b bs =>
      rw [Spec.commaWords, filled_append, filled_other hb hc, ih]
      · rfl
      · simp

theorem paramIndex_below {ps : List Str} {p : Str} {i : Nat} (h : Spec.paramIndex ps p = some i) : i < ps.length := by
  induction ps generalizing i with
  | nil => cases h
  | cons q ps ih =>
    rw [Spec.paramIndex] at h
    split at h
    · cases h; simp
    · cases hq : Spec.paramIndex ps p with
      | none => rw [hq] at h; cases h
      | some j =>
        rw [hq] at h
        cases h
        have := ih hq
        simp
        exact this

/-- The texts of the arguments. -/
theorem all_make {D : Table} {S : List Str} : ∀ {iss : List (List Item)} {vs : List Int}, iss.length = vs.length →
    (∀ (i : Nat) is u, iss[i]? = some is → vs[i]? = some u → MakesText E D S 12 is u) →
    ∃ sss : List (List Str), sss.length = vs.length ∧ ExpandsAll (Spec.cName E) D S iss (sss.map Spec.others) ∧
      (∀ is ∈ iss, ArgText is) ∧ ∀ (i : Nat) u, vs[i]? = some u → ∃ ss, sss[i]? = some ss ∧ GoodText E 12 ss u
  | [], [], _, _ => ⟨[], rfl, .nil, by simp, by simp⟩
  | [], _ :: _, h, _ => by simp at h
  | _ :: _, [], h, _ => by simp at h
  | is :: iss, v :: vs, hl, h => by
    obtain ⟨h0, ss, h1, h2⟩ := h 0 is v rfl rfl
    obtain ⟨sss, g0, g1, g2, g3⟩ := all_make (iss := iss) (vs := vs) (by simpa using hl) fun i is u hi hu => h (i + 1) is u (by simpa using hi) (by simpa using hu)
    refine ⟨ss :: sss, by simp [g0], .cons h1 g1, ?_, ?_⟩
    · intro x hx
      rcases List.mem_cons.1 hx with rfl | hx
      · exact h0
      · exact g2 x hx
    · intro i u hu
      cases i with
      | zero => simp at hu; subst hu; exact ⟨ss, rfl, h2⟩
      | succ i => simpa using g3 i u (by simpa using hu)

theorem evaluates (L : E.Lawful) {S : List Str} {ρ : Str → Option Int} {ℓ : Nat} {ws : List Str} {v : Int}
    (h : Eval E.xidStart E.xidContinue D S ρ ℓ ws v) : ∀ ps sss, BoundBy E ps sss ρ → MakesText E D S ℓ (filled E ps sss ws) v := by
  induction h with
  | lit h hv ht =>
    intro ps sss hb
    rw [filled_other hb (noName_lit L h ht)]
    exact makesText_good (good_lit h hv ht)
  | @param S ρ p v hp =>
    intro ps sss hb
    obtain ⟨i, ss, h1, h2, h3⟩ := hb.some p v hp
    have : filled E ps sss [p] = Spec.others ss := by
      simp only [filled, Spec.subst, h1, List.append_nil, List.getD_eq_getElem?_getD, List.getElem?_map, h2]
      rfl
    rw [this]
    exact makesText_good h3
  | @object S ρ x body v hx hva hρ hS hD _ ih =>
    intro ps sss hb
    obtain ⟨h0, ss, h1, h2⟩ := ih [] [] boundBy_nil
    rw [filled_name hb hx hva hρ]
    refine ⟨.name .nil, ss, ?_, h2⟩
    rw [filled_nil] at h1
    have := Expands.object (H := S) (ts := []) hS hD h1 .nil
    rwa [List.append_nil] at this
  | @call S ρ f params body args vs v hf hva hρ hS hD hps hne hla hlv hargs _ iha ih =>
    intro ps sss hb
    obtain ⟨tss, h1, h2, h3, h4⟩ := all_make (E := E) (D := D) (S := S) (iss := args.map (filled E ps sss)) (vs := vs)
      (by rw [List.length_map, hla, hlv]) (by
        intro i is u hi hu
        rw [List.getElem?_map] at hi
        cases ha : args[i]? with
        | none => rw [ha] at hi; cases hi
        | some a => rw [ha] at hi; cases hi; exact iha i a u ha hu ps sss hb)
    obtain ⟨g0, ss, g1, g2⟩ := ih params tss ⟨hps, fun p u hp => by
        unfold Spec.bindParams at hp
        cases hi : Spec.paramIndex params p with
        | none => rw [hi] at hp; cases hp
        | some i =>
          rw [hi] at hp
          obtain ⟨ss, hs, hg⟩ := h4 i u hp
          exact ⟨i, ss, rfl, hs, hg⟩, fun p hp => by
        unfold Spec.bindParams at hp
        cases hi : Spec.paramIndex params p with
        | none => rfl
        | some i =>
          rw [hi] at hp
          have := paramIndex_below hi
          simp only [Option.bind_some] at hp
          rw [List.getElem?_eq_none_iff] at hp
          omega⟩
    have hcall : Spec.Call (args.map (filled E ps sss))
        (.other c!"(" :: (Spec.commaJoin (args.map (filled E ps sss)) ++ [.other c!")"])) [] :=
      ⟨by simpa using hne, h3, rfl⟩
    rw [filled_name hb hf hva hρ, filled_other hb (noName_punct L (by decide)), filled_append, filled_comma L hb,
      filled_other hb (noName_punct L (by decide))]
    refine ⟨.name ?_, ss, ?_, g2⟩
    · rw [argText_iff]
      have := brun_call hcall false []
      rw [show filled E ps sss [] = [] from rfl, this]
      rfl
    · have hd : c!"..." ∉ params := by
        intro hm
        obtain ⟨h | h, _⟩ := hps _ hm
        · rw [L.startAscii _ (by decide)] at h; revert h; decide
        · revert h; decide
      have := Expands.call (H := S) hS hD hd hcall (.inl (by simpa using hla)) h2 g1 .nil
      rwa [List.append_nil] at this
  | @call0 S ρ f body v hf hva hρ hS hD _ ih =>
    intro ps sss hb
    obtain ⟨h0, ss, h1, h2⟩ := ih [] [] boundBy_nil
    rw [filled_name hb hf hva hρ, filled_other hb (noName_punct L (by decide)), filled_other hb (noName_punct L (by decide))]
    have hcall : Spec.Call [[]] ([.other c!"(", .other c!")"]) [] := ⟨by simp, by simp; exact .nil, rfl⟩
    refine ⟨.name ?_, ss, ?_, h2⟩
    · exact .group (inner := []) (.inl ⟨rfl, rfl⟩) .nil .nil
    · have h1' : Expands (Spec.cName E) D (f :: S) (Spec.subst (Spec.cName E) [] [[]] none body) (Spec.others ss) := by
        have : ∀ (as : List (List Item)) (b : List Str), Spec.subst (Spec.cName E) [] as none b = Spec.subst (Spec.cName E) [] [] none b := by
          intro as b
          induction b with
          | nil => rfl
          | cons w b ih => simp only [Spec.subst, Spec.paramIndex, ih]
        rw [this]
        exact h1
      have := Expands.call (H := S) hS hD (by simp) hcall (.inr ⟨rfl, rfl⟩) (.cons .nil .nil) h1' .nil
      rwa [List.append_nil] at this
  | paren _ ih =>
    intro ps sss hb
    rw [filled_other hb (noName_punct L (by decide)), filled_append, filled_other hb (noName_punct L (by decide))]
    exact makesText_paren (ih ps sss hb)
  | plus _ ih =>
    intro ps sss hb
    rw [filled_other hb (noName_punct L (by decide))]
    exact makesText_plus (ih ps sss hb)
  | neg _ hv ih =>
    intro ps sss hb
    rw [filled_other hb (noName_punct L (by decide))]
    exact makesText_neg (ih ps sss hb) hv
  | bin hp _ _ hv hi iha ihb =>
    intro ps sss hb
    rw [filled_append, filled_other hb (noName_punct L (List.mem_append_right _ (List.mem_map.2 ⟨_, hp, rfl⟩)))]
    exact makesText_bin hp (iha ps sss hb) (ihb ps sss hb) hv hi
  | up _ hℓ ih =>
    intro ps sss hb
    exact makesText_up (ih ps sss hb) hℓ

end CMacro
