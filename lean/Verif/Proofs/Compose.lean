import Verif.Spec.Compose
import Verif.Props.Value
import Verif.Props.Reach
import Verif.Proofs.Nested

/-!
# Lemmas for C92
-/

namespace CMacro
open Spec (Op Def Table Item Expands IsIdent CText Gram Value ConstText Constants IntConst Closed)

/-- A word of a constant expression that is no name. -/
def NoName (E : Env) (w : Str) : Prop :=
  ¬ IsIdent E.xidStart E.xidContinue w ∧ '\\' ∉ w ∧ w ≠ c!"#" ∧ w ≠ c!"##" ∧ w ≠ c!"__VA_ARGS__"

theorem digits_chars {b : Nat} {ds : List Nat} {s : Str} (h : Spec.Digits b ds s) : ∀ c ∈ s, c.toNat ≠ 92 := by
  induction h with
  | nil => intro c hc; cases hc
  | cons hd _ ih =>
    intro c hc
    rcases List.mem_cons.1 hc with rfl | hc
    · obtain ⟨_, ⟨_, h⟩ | ⟨_, _, h | h⟩⟩ := hd <;> omega
    · exact ih c hc

theorem intConst_noBackslash {s : Str} {v : Nat} (h : IntConst s v) : '\\' ∉ s := by
  intro hm
  have hx : ∀ {b ds s}, Spec.Digits b ds s → '\\' ∉ s := fun h hm => digits_chars h _ hm (by decide)
  cases h with
  | dec h _ _ => exact hx h hm
  | oct h =>
    rcases List.mem_cons.1 hm with h' | h'
    · revert h'; decide
    · exact hx h h'
  | hex hc h _ =>
    rcases List.mem_cons.1 hm with h' | h'
    · revert h'; decide
    · rcases List.mem_cons.1 h' with rfl | h'
      · revert hc; decide
      · exact hx h h'
  | bin hc h _ =>
    rcases List.mem_cons.1 hm with h' | h'
    · revert h'; decide
    · rcases List.mem_cons.1 h' with rfl | h'
      · revert hc; decide
      · exact hx h h'

theorem suffix_noBackslash {t : Str} {ty : Option BuiltInType} (h : (t, ty) ∈ Spec.intSuffixes) : '\\' ∉ t := by
  have : ∀ x ∈ Spec.intSuffixes, '\\' ∉ x.1 := by decide
  exact this _ h

theorem noName_lit {E : Env} (L : E.Lawful) {s t : Str} {v : Nat} {ty : Option BuiltInType} (h : IntConst s v)
    (ht : (t, ty) ∈ Spec.intSuffixes) : NoName E (s ++ t) := by
  obtain ⟨c, r, rfl, hc⟩ := intConst_first h
  have hn := (notStart_digit L hc).1
  refine ⟨?_, ?_, ?_, ?_, ?_⟩
  · rintro ⟨h | h, _⟩
    · simp [isIdentStart, h] at hn
    · subst h; revert hc; decide
  · intro hm
    rcases List.mem_append.1 hm with hm | hm
    · exact intConst_noBackslash h hm
    · exact suffix_noBackslash ht hm
  all_goals
    intro he
    rw [List.cons_append] at he
    have := (List.cons.inj he).1
    subst this
    revert hc
    decide

theorem noName_punct {E : Env} (L : E.Lawful) {w : Str}
    (h : w ∈ [c!"(", c!")", c!"+", c!"-"] ++ Spec.binaryOps.map (·.2.1)) : NoName E w := by
  have hall : ∀ w ∈ [c!"(", c!")", c!"+", c!"-"] ++ Spec.binaryOps.map (·.2.1),
      (match w with | [] => true | c :: _ => decide (c.toNat < 128 ∧ c.isAlpha = false ∧ c ≠ '_')) = true ∧
      '\\' ∉ w ∧ w ≠ c!"#" ∧ w ≠ c!"##" ∧ w ≠ c!"__VA_ARGS__" := by decide
  obtain ⟨h1, h2⟩ := hall w h
  refine ⟨?_, h2⟩
  cases w with
  | nil => exact id
  | cons c r =>
    have h1 := of_decide_eq_true h1
    rintro ⟨h | h, _⟩
    · rw [L.startAscii c h1.1, h1.2.1] at h; cases h
    · exact h1.2.2 h

/-- The words of a constant expression. -/
theorem constText_words {E : Env} (L : E.Lawful) {val : Str → Option Int} {ℓ : Nat} {ss : List Str} {v : Int}
    (h : ConstText val ℓ ss v) : ∀ w ∈ ss, val w ≠ none ∨ NoName E w := by
  induction h with
  | lit h _ ht => intro w hw; rw [List.mem_singleton.1 hw]; exact .inr (noName_lit L h ht)
  | name h => intro w hw; rw [List.mem_singleton.1 hw, h]; exact .inl (by simp)
  | paren _ ih =>
    intro w hw
    rcases List.mem_cons.1 hw with rfl | hw
    · exact .inr (noName_punct L (by decide))
    · rcases List.mem_append.1 hw with hw | hw
      · exact ih w hw
      · rw [List.mem_singleton.1 hw]; exact .inr (noName_punct L (by decide))
  | plus _ ih =>
    intro w hw
    rcases List.mem_cons.1 hw with rfl | hw
    · exact .inr (noName_punct L (by decide))
    · exact ih w hw
  | neg _ _ ih =>
    intro w hw
    rcases List.mem_cons.1 hw with rfl | hw
    · exact .inr (noName_punct L (by decide))
    · exact ih w hw
  | bin hp _ _ _ _ iha ihb =>
    intro w hw
    rcases List.mem_append.1 hw with hw | hw
    · exact iha w hw
    · rcases List.mem_cons.1 hw with rfl | hw
      · exact .inr (noName_punct L (List.mem_append_right _ (List.mem_map.2 ⟨_, hp, rfl⟩)))
      · exact ihb w hw
  | up _ _ ih => exact ih

theorem CText.append {E : Env} {ss us : List Str} {ts vs : List MacroToken} (h : CText E ss ts) (h' : CText E us vs) :
    CText E (ss ++ us) (ts ++ vs) := by
  induction h with
  | nil => exact h'
  | cons h _ ih => exact .cons h ih

theorem item_noName {E : Env} {w : Str} (h : NoName E w) : Spec.item (Spec.cName E) w = .other w := by
  simp only [Spec.item, Spec.cName, if_neg fun hi : w ≠ c!"__VA_ARGS__" ∧ IsIdent E.xidStart E.xidContinue w => h.1 hi.2]

theorem item_name {E : Env} {x : Str} (h : IsIdent E.xidStart E.xidContinue x) (hv : x ≠ c!"__VA_ARGS__") :
    Spec.item (Spec.cName E) x = .name x false := by
  simp only [Spec.item, Spec.cName, if_pos (show x ≠ c!"__VA_ARGS__" ∧ IsIdent E.xidStart E.xidContinue x from ⟨hv, h⟩)]

/-- No token of the text is alone and a name. -/
def NotName (ts : List MacroToken) : Prop := ∀ t n, Spec.Name t n → ts ≠ [t]

/-- What the words expand to, its tokens, its tree and its value. -/
def ReadsAs (E : Env) (D : Table) (H : List Str) (ℓ : Nat) (body : List Str) (v : Int) : Prop :=
  ∃ ss ts e, Expands (Spec.cName E) D H (body.map (Spec.item (Spec.cName E))) (Spec.others ss) ∧ CText E ss ts ∧ Gram ℓ ts e ∧
    Value e v ∧ NotName ts

theorem readsAs_one {E : Env} {D : Table} {H : List Str} {w : Str} (h : NoName E w) :
    Expands (Spec.cName E) D H ([w].map (Spec.item (Spec.cName E))) (Spec.others [w]) := by
  rw [List.map_singleton, item_noName h]
  exact .other .nil

theorem punct_text {E : Env} {w : Str} (h : w ∈ Spec.punctuators) : CText E [w] [.punct w] := .cons (.punct h) .nil

theorem binary_punct {ℓ : Nat} {p : Str} {op : BinOp} (h : (ℓ, p, op) ∈ Spec.binaryOps) : p ∈ Spec.punctuators := by
  have : ∀ x ∈ Spec.binaryOps, x.2.1 ∈ Spec.punctuators := by decide
  exact this _ h

theorem notName_len {ts : List MacroToken} (h : 2 ≤ ts.length) : NotName ts := by
  rintro t n _ rfl
  simp at h

theorem gram_ne {ℓ : Nat} {ts : List MacroToken} {e : Expr} (h : Gram ℓ ts e) : ts ≠ [] := by
  rintro rfl
  generalize hts : ([] : List MacroToken) = ts at h
  refine Gram.rec (motive_1 := fun _ ts _ _ => ts ≠ []) (motive_2 := fun _ _ _ => True)
    ?_ ?_ ?_ ?_ ?_ ?_ ?_ ?_ ?_ ?_ ?_ ?_ ?_ ?_ ?_ ?_ ?_ ?_ ?_ h hts.symm
  all_goals intros
  all_goals first | trivial | (simp; done) | assumption

theorem readsAs {E : Env} (L : E.Lawful) {D : Table} {val : Str → Option Int} {rank : Str → Nat}
    (hK : Constants E.xidStart E.xidContinue D val rank) :
    ∀ (r : Nat) {ℓ : Nat} {body : List Str} {v : Int}, ConstText val ℓ body v → ∀ H : List Str,
      (∀ w ∈ body, val w ≠ none → rank w < r) → (∀ x ∈ H, r ≤ rank x) → ReadsAs E D H ℓ body v := by
  intro r
  induction r using Nat.strongRecOn with
  | ind r IH =>
  intro ℓ body v h
  induction h with
  | @lit s t ty v h hv ht =>
    intro H _ _
    refine ⟨[s ++ t], [.lit (.int ⟨BitVec.ofNat 128 v, ty⟩)], _, readsAs_one (noName_lit L h ht), .cons (.int h hv ht) .nil, .lit, ?_, ?_⟩
    · have := Value.lit (n := ⟨BitVec.ofNat 128 v, ty⟩)
      rw [show (LitInt.mk (BitVec.ofNat 128 v) ty).value = BitVec.ofNat 128 v from rfl, toInt_ofNat hv] at this
      exact this
    · rintro t' n hn he
      rw [← (List.cons.inj he).1] at hn
      cases hn
  | @name x v hx =>
    intro H hw hH
    have hr := hw x List.mem_cons_self (by rw [hx]; simp)
    obtain ⟨body, hD, hb, hbw⟩ := hK.defined x v hx
    obtain ⟨ss, ts, e, h1, h2⟩ := IH (rank x) hr hb (x :: H) hbw (by
      intro y hy
      rcases List.mem_cons.1 hy with rfl | hy
      · exact Nat.le_refl _
      · exact Nat.le_trans (Nat.le_of_lt hr) (hH y hy))
    refine ⟨ss, ts, e, ?_, h2⟩
    rw [List.map_singleton, item_name (hK.ident x v hx).1 (hK.ident x v hx).2]
    have := Expands.object (H := H) (ts := []) (fun hm => absurd (hH x hm) (Nat.not_le.2 hr)) hD h1 .nil
    rwa [List.append_nil] at this
  | @paren ss v _ ih =>
    intro H hw hH
    obtain ⟨us, ts, e, h1, h2, h3, h4, h5⟩ := ih H (fun w hm => hw w (List.mem_cons_of_mem _ (List.mem_append_left _ hm))) hH
    refine ⟨c!"(" :: (us ++ [c!")"]), _, e, ?_, .cons (.punct (by decide)) (CText.append h2 (punct_text (by decide))), .paren h3 h5, h4,
      notName_len (by simp)⟩
    have := Expands.append' (readsAs_one (D := D) (H := H) (noName_punct L (w := c!"(") (by decide)))
      (Expands.append' h1 (readsAs_one (D := D) (H := H) (noName_punct L (w := c!")") (by decide))))
    simpa [Spec.others] using this
  | @plus ss v _ ih =>
    intro H hw hH
    obtain ⟨us, ts, e, h1, h2, h3, h4, h5⟩ := ih H (fun w hm => hw w (List.mem_cons_of_mem _ hm)) hH
    refine ⟨c!"+" :: us, _, .un .plus e, ?_, .cons (.punct (by decide)) h2, .pre (by decide) h3, .plus h4, ?_⟩
    · have := Expands.append' (readsAs_one (D := D) (H := H) (noName_punct L (w := c!"+") (by decide))) h1
      simpa [Spec.others] using this
    · rintro t n hn he
      exact gram_ne h3 (List.cons.inj he).2
  | @neg ss v _ hv ih =>
    intro H hw hH
    obtain ⟨us, ts, e, h1, h2, h3, h4, h5⟩ := ih H (fun w hm => hw w (List.mem_cons_of_mem _ hm)) hH
    refine ⟨c!"-" :: us, _, .un .minus e, ?_, .cons (.punct (by decide)) h2, .pre (by decide) h3, .neg h4 hv, ?_⟩
    · have := Expands.append' (readsAs_one (D := D) (H := H) (noName_punct L (w := c!"-") (by decide))) h1
      simpa [Spec.others] using this
    · rintro t n hn he
      exact gram_ne h3 (List.cons.inj he).2
  | @bin ℓ p op ss us a b v hp _ _ hbv hi iha ihb =>
    intro H hw hH
    obtain ⟨as, ts, e, h1, h2, h3, h4, h5⟩ := iha H (fun w hm => hw w (List.mem_append_left _ hm)) hH
    obtain ⟨bs, tb, f, g1, g2, g3, g4, g5⟩ := ihb H (fun w hm => hw w (List.mem_append_right _ (List.mem_cons_of_mem _ hm))) hH
    refine ⟨as ++ p :: bs, _, .bin e op f, ?_, CText.append h2 (.cons (.punct (binary_punct hp)) g2), .bin hp h3 g3, .bin h4 g4 hbv hi, ?_⟩
    · have hn := noName_punct L (List.mem_append_right [c!"(", c!")", c!"+", c!"-"] (List.mem_map.2 ⟨_, hp, rfl⟩))
      have := Expands.append' h1 (Expands.append' (readsAs_one (D := D) (H := H) hn) g1)
      simpa [Spec.others] using this
    · refine notName_len ?_
      cases ts with
      | nil => exact absurd rfl (gram_ne h3)
      | cons _ _ => simp; omega
  | up _ hℓ ih =>
    intro H hw hH
    obtain ⟨us, ts, e, h1, h2, h3, h4⟩ := ih H hw hH
    exact ⟨us, ts, e, h1, h2, .up h3 hℓ, h4⟩

/-- Definitions of other names left out. -/
theorem run_filter (p : Str → Bool) (h : List Op) (n : Str) :
    Table.run (h.filter fun o => p o.name) n = if p n then Table.run h n else none := by
  have key : ∀ (h : List Op) (t t' : Table), (∀ n, t' n = if p n then t n else none) → ∀ n,
      (h.filter fun o => p o.name).foldl Table.step t' n = if p n then h.foldl Table.step t n else none := by
    intro h
    induction h with
    | nil => intro t t' ht n; exact ht n
    | cons o h ih =>
      intro t t' ht n
      rw [List.filter_cons]
      by_cases hp : p o.name = true
      · rw [if_pos hp]
        refine ih (t.step o) (t'.step o) (fun m => ?_) n
        by_cases hm : o.name = m
        · subst hm
          have h1 := ht o.name
          rw [if_pos hp] at h1
          rw [if_pos hp]
          cases o with
          | defineVar m b => simp [Table.step, Table.set, Op.name]
          | defineFn m q b => simp [Table.step, Table.set, Op.name]
          | undefineVar m =>
            simp only [Op.name] at h1
            rcases hx : t m with _ | _ | _ <;> simp [Table.step, Table.set, Op.name, h1, hx]
          | undefineFn m =>
            simp only [Op.name] at h1
            rcases hx : t m with _ | _ | _ <;> simp [Table.step, Table.set, Op.name, h1, hx]
        · rw [step_other _ _ _ hm, step_other _ _ _ hm, ht m]
      · rw [if_neg hp]
        refine ih (t.step o) t' (fun m => ?_) n
        by_cases hm : o.name = m
        · subst hm
          rw [ht, if_neg hp, if_neg hp]
        · rw [step_other _ _ _ hm, ht m]
  refine key h Table.empty Table.empty (fun n => ?_) n
  unfold Table.empty
  split <;> rfl

end CMacro
