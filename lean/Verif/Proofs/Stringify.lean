import Verif.Proofs.Panic2
import Verif.Proofs.CallStep

/-! # Stringification -/

namespace CMacro
open Spec (Item Call Table BlockComment IsIdent Digits)
open Parser

variable {E : Env} {ms : MacroSet}

/-! ## Identifiers contain no quotation marks -/

theorem digits_unquoted {ds : List Nat} {s : Str} (h : Digits 16 ds s) : Unquoted s := by
  have h1 : isDigit 16 '"' = false := by decide
  have h2 : isDigit 16 '\'' = false := by decide
  have hd := Digits.isDigit h
  exact ⟨fun hm => by rw [hd _ hm] at h1; simp at h1, fun hm => by rw [hd _ hm] at h2; simp at h2⟩

theorem identChar_text {i r : Str} {c : Char} (h : identChar i = some (c, r)) :
    ∃ w, i = w ++ r ∧ (w = [c] ∨ Unquoted w) := by
  replace h := or_inv h
  rcases h with h | ⟨-, h⟩
  · obtain ⟨n, h, -⟩ := mapOpt_inv h
    obtain ⟨_, r1, h1, h2⟩ := preceded_inv h
    replace h2 := or_inv h2
    rcases h2 with h2 | ⟨-, h2⟩
    · obtain ⟨_, r2, h2, h3⟩ := preceded_inv h2
      obtain ⟨ds, h3, -⟩ := map_inv h3
      obtain ⟨s, h4, h5, -⟩ := manyMN_inv _ _ _ _ _ h3
      obtain ⟨hu1, hu2⟩ := digits_unquoted h4
      refine ⟨'\\' :: 'u' :: s, by rw [tag1_inv h1, tag1_inv h2, h5]; rfl, .inr ⟨?_, ?_⟩⟩
      · simp [hu1]
      · simp [hu2]
    · obtain ⟨_, r2, h2, h3⟩ := preceded_inv h2
      obtain ⟨ds, h3, -⟩ := map_inv h3
      obtain ⟨s, h4, h5, -⟩ := manyMN_inv _ _ _ _ _ h3
      obtain ⟨hu1, hu2⟩ := digits_unquoted h4
      refine ⟨'\\' :: 'U' :: s, by rw [tag1_inv h1, tag1_inv h2, h5]; rfl, .inr ⟨?_, ?_⟩⟩
      · simp [hu1]
      · simp [hu2]
  · cases i with
    | nil => simp [satisfy] at h
    | cons z i =>
      simp only [satisfy, if_true, Option.some.injEq, Prod.mk.injEq] at h
      exact ⟨[z], by rw [← h.2]; rfl, .inl (by rw [h.1])⟩

theorem identPiece_text (L : E.Lawful) {i r : Str} {c : Char} {f : Char → Bool}
    (hf : ∀ c, f c = true → c ≠ '"' ∧ c ≠ '\'')
    (h : mapOpt identChar (fun c => if f c then some c else none) i = some (c, r)) :
    ∃ w, i = w ++ r ∧ Unquoted w := by
  obtain ⟨x, h1, h2⟩ := mapOpt_inv h
  obtain ⟨w, hw, h3⟩ := identChar_text h1
  refine ⟨w, hw, ?_⟩
  rcases h3 with rfl | h3
  · split at h2
    · rename_i hx
      have := hf x hx
      exact ⟨by simp [Ne.symm this.1], by simp [Ne.symm this.2]⟩
    · simp at h2
  · exact h3

theorem contNotQuote (L : E.Lawful) (c : Char) (h : E.xidContinue c = true) :
    c ≠ '"' ∧ c ≠ '\'' := by
  obtain ⟨h1, h2⟩ := notCont_quote L
  exact ⟨fun hc => by rw [← hc, h] at h1; simp at h1, fun hc => by rw [← hc, h] at h2; simp at h2⟩

theorem many0_ident_text (L : E.Lawful) : ∀ (k : Nat) (i r : Str) (as : List Char), i.length ≤ k →
    many0 (mapOpt identChar fun c => if E.xidContinue c then some c else none) i = some (as, r) →
    ∃ w, i = w ++ r ∧ Unquoted w := by
  have hs : Shrinks (mapOpt identChar fun c => if E.xidContinue c then some c else none) :=
    shrinks_identChar.mapOpt _
  have hnil : Unquoted [] := ⟨by simp, by simp⟩
  intro k
  induction k with
  | zero =>
    intro i r as hk h
    have hi : i = [] := List.eq_nil_of_length_eq_zero (by omega)
    subst hi
    rw [many0_eq hs] at h
    split at h
    · simp only [Option.some.injEq, Prod.mk.injEq] at h; exact ⟨[], by rw [← h.2]; rfl, hnil⟩
    · rename_i a r' ha
      have := hs _ _ _ ha
      rw [if_pos (by simpa using this)] at h
      simp at h
  | succ k ih =>
    intro i r as hk h
    rw [many0_eq hs] at h
    split at h
    · simp only [Option.some.injEq, Prod.mk.injEq] at h; exact ⟨[], by rw [← h.2]; rfl, hnil⟩
    · rename_i a r' ha
      have hle := hs _ _ _ ha
      split at h
      · simp at h
      · split at h
        · rename_i as' r'' has
          simp only [Option.some.injEq, Prod.mk.injEq] at h
          obtain ⟨w, h1, h2⟩ := identPiece_text L (contNotQuote L) ha
          obtain ⟨w', h3, h4⟩ := ih _ _ _ (by omega) has
          exact ⟨w ++ w', by rw [h1, h3, ← h.2]; simp, h2.append h4⟩
        · simp at h

theorem takeWhile_split (f : Char → Bool) (l : Str) : l = l.takeWhile f ++ l.dropWhile f :=
  (List.takeWhile_append_dropWhile (p := f) (l := l)).symm

theorem identTryFrom_unquoted (L : E.Lawful) {s id : Str} (h : identTryFrom E s = some id) :
    Unquoted s := by
  unfold identTryFrom at h
  obtain ⟨⟨a, r⟩, hac, rfl⟩ := Option.map_eq_some_iff.1 h
  obtain ⟨hps, -⟩ := allConsuming_inv hac
  clear h hac
  have hstart : ∀ c, isIdentStart E c = true → c ≠ '"' ∧ c ≠ '\'' := by
    intro c hc
    simp only [isIdentStart, Bool.or_eq_true, beq_iff_eq] at hc
    rcases hc with hc | rfl
    · exact contNotQuote L c (L.startCont _ hc)
    · decide
  replace hps := or_inv hps
  rcases hps with ha | ⟨-, ha⟩
  · cases s with
    | nil => simp [identPlain] at ha
    | cons c cs =>
      simp only [identPlain] at ha
      split at ha
      · rename_i hc
        simp only [Option.some.injEq, Prod.mk.injEq] at ha
        have hu : Unquoted (cs.takeWhile E.xidContinue) := unquoted_cont L (fun x hx =>
          (List.all_eq_true.1 (List.all_takeWhile (l := cs) (p := E.xidContinue))) x hx)
        have := takeWhile_split E.xidContinue cs
        rw [ha.2, List.append_nil] at this
        have hcq := hstart c hc
        rw [this]
        exact ⟨by simp [Ne.symm hcq.1, hu.1], by simp [Ne.symm hcq.2, hu.2]⟩
      · simp at ha
  · replace ha := map_inv ha
    obtain ⟨⟨c, cs⟩, ha, rfl⟩ := ha
    replace ha := seq_inv ha
    obtain ⟨r', h1, h2⟩ := ha
    obtain ⟨w, h3, h4⟩ := identPiece_text L hstart h1
    obtain ⟨w', h5, h6⟩ := many0_ident_text L _ _ _ _ (Nat.le_refl _) h2
    rw [h3, h5, List.append_nil]
    exact h4.append h6

theorem identContTryFrom_unquoted (L : E.Lawful) {s id : Str}
    (h : identContTryFrom E s = some id) : Unquoted s := by
  unfold identContTryFrom at h
  obtain ⟨⟨a, r⟩, hac, rfl⟩ := Option.map_eq_some_iff.1 h
  obtain ⟨hps, -⟩ := allConsuming_inv hac
  clear h hac
  replace hps := or_inv hps
  rcases hps with ha | ⟨-, ha⟩
  · obtain ⟨h1, h2⟩ := takeWhile1_inv ha
    rw [h1, List.append_nil]
    exact unquoted_cont L h2
  · unfold many1 at ha
    split at ha
    · simp at ha
    · obtain ⟨w, h1, h2⟩ := many0_ident_text L _ _ _ _ (Nat.le_refl _) ha
      rw [h1, List.append_nil]
      exact h2

/-! ## The loop -/

/-- The text without blanks. -/
def Spec.squeeze (s : Str) : Str := s.filter fun c => c ≠ ' '

theorem squeeze_append (a b : Str) : Spec.squeeze (a ++ b) = Spec.squeeze a ++ Spec.squeeze b :=
  List.filter_append _ _

/-- The text a token contributes. -/
def strText (t : Token) : Str := match t.stringify false with
  | .append s => s
  | _ => []

theorem stringifyGo_text : ∀ (ts : List Token) (space : Bool) (kept : List Token) (cur : Option Str),
    (∀ t ∈ ts, t.isArg = false) → (∀ t ∈ ts, ∀ x, t ≠ .nonRepl x) →
    ∃ c, stringifyGo false space kept cur ts = (kept, c) ∧
      Spec.squeeze (c.getD []) = Spec.squeeze (cur.getD []) ++ Spec.squeeze (ts.flatMap strText) := by
  intro ts
  induction ts with
  | nil => intro space kept cur _ _; exact ⟨cur, rfl, by simp [Spec.squeeze]⟩
  | cons t ts ih =>
    intro space kept cur h1 h2
    have ih := fun a b c => ih a b c (fun x hx => h1 x (List.mem_cons_of_mem _ hx))
      (fun x hx => h2 x (List.mem_cons_of_mem _ hx))
    simp only [stringifyGo]
    cases ht : t.stringify false with
    | keep =>
      exfalso
      have ha := h1 t List.mem_cons_self
      have hb := h2 t List.mem_cons_self
      cases t <;> simp_all [Token.stringify, Token.isArg]
    | skip =>
      obtain ⟨c, hc1, hc2⟩ := ih space kept cur
      exact ⟨c, hc1, by simpa [strText, ht] using hc2⟩
    | append s =>
      simp only
      obtain ⟨c, hc1, hc2⟩ := ih (!noSpaceAfter s) kept (some ((if (!noSpaceBefore s && space) = true
        then cur.getD [] ++ [' '] else cur.getD []) ++ s))
      refine ⟨c, hc1, ?_⟩
      rw [hc2]
      simp only [Option.getD_some, List.flatMap_cons, squeeze_append, strText, ht]
      split
      · simp [squeeze_append, Spec.squeeze]
      · simp

/-- Written as it stands in a string: no escapes outside literals. -/
def Spelled (s : Str) : Prop := '\\' ∉ s ∨ '"' ∈ s ∨ '\'' ∈ s

instance (s : Str) : Decidable (Spelled s) := by unfold Spelled; infer_instance

theorem strText_fromStr (L : E.Lawful) {s : Str} (hs : Spelled s) (hv : s ≠ c!"__VA_ARGS__")
    (h1 : ¬ c!"\\\n" <+: s) (h2 : ¬ c!"\\\r\n" <+: s) :
    strText (Token.fromStr E s) = (if BlockComment s then [] else s) := by
  by_cases hb : BlockComment s
  · rw [if_pos hb]
    obtain ⟨c, hc⟩ := fromStr_blockComment L hb
    rw [hc]; rfl
  · rw [if_neg hb]
    have hq : ∀ {x : Str}, Unquoted s → x = s ∨ '\\' ∉ s := by
      intro x hu
      rcases hs with h | h | h
      · exact .inr h
      · exact absurd h hu.1
      · exact absurd h hu.2
    cases ht : Token.fromStr E s with
    | ident id =>
      have hi := (fromStr_ident.1 ht).2
      have hst : strText (Token.ident id) = id := by simp [strText, Token.stringify]
      rw [hst]
      rcases hq (x := id) (identTryFrom_unquoted L hi) with h | h
      · exact h
      · exact ((identTryFrom_noEscape E h id).1 hi).1
    | comment c => exact absurd (blockComment_of_fromStr ht) hb
    | varArgs => exact absurd (fromStr_varArgs.1 ht) hv
    | punct p => exact fromStr_punct ht h1 h2
    | nonRepl x => exact absurd ht (fromStr_ne_nonRepl E s x)
    | macroArg i => exact absurd ht (fromStr_ne_macroArg E s i)
    | placemarker => exact absurd ht (fromStr_ne_placemarker E s)
    | identCont x =>
      show x = s
      unfold Token.fromStr at ht
      repeat' split at ht
      all_goals first | (simp at ht; done) | skip
      rename_i hi
      simp only [Token.identCont.injEq] at ht
      rw [ht] at hi
      rcases hq (x := x) (identContTryFrom_unquoted L hi) with h | h
      · exact h
      · exact (contNoEscape h hi).1
    | lit l x =>
      show x = s
      unfold Token.fromStr at ht
      repeat' split at ht
      all_goals first | (simp at ht; done) | skip
      simp only [Token.lit.injEq] at ht
      exact ht.2.symm
    | plain x =>
      show x = s
      unfold Token.fromStr at ht
      repeat' split at ht
      all_goals first | (simp at ht; done) | skip
      simp only [Token.plain.injEq] at ht
      exact ht.symm

/-- Stringifying tokens read from spellings. -/
theorem stringify_text (L : E.Lawful) {p : List Str} (hp : ∀ s ∈ p, Spelled s ∧ s ≠ c!"__VA_ARGS__" ∧
    ¬ c!"\\\n" <+: s ∧ ¬ c!"\\\r\n" <+: s) :
    ∃ text src, stringify E false (p.map (Token.fromStr E)) =
        [.lit (.string (.ordinary (utf8EncStr text))) src] ∧
      Spec.squeeze text = Spec.squeeze ((Spec.withoutComments p).flatten) := by
  obtain ⟨c, h1, h2⟩ := stringifyGo_text (p.map (Token.fromStr E)) false [] none (by
    intro t ht
    obtain ⟨s, hs, rfl⟩ := List.mem_map.1 ht
    cases hi : (Token.fromStr E s).isArg with
    | false => rfl
    | true => exact absurd (fromStr_isArg.1 hi) (hp s hs).2.1) (by
    intro t ht x
    obtain ⟨s, hs, rfl⟩ := List.mem_map.1 ht
    exact fromStr_ne_nonRepl E s x)
  have h3 : (p.map (Token.fromStr E)).flatMap strText =
      (Spec.withoutComments p).flatten := by
    clear h1 h2
    induction p with
    | nil => rfl
    | cons s p ih =>
      obtain ⟨a1, a2, a3, a4⟩ := hp s List.mem_cons_self
      rw [List.map_cons, List.flatMap_cons, ih (fun x hx => hp x (List.mem_cons_of_mem _ hx)),
        strText_fromStr L a1 a2 a3 a4]
      by_cases hb : BlockComment s <;> simp [hb, Spec.withoutComments, List.filter_cons]
  rw [h3] at h2
  unfold stringify
  rw [h1]
  cases c with
  | none => exact ⟨[], _, rfl, by simpa [Spec.squeeze] using h2⟩
  | some s => exact ⟨s, _, rfl, by simpa [Spec.squeeze] using h2⟩

end CMacro
