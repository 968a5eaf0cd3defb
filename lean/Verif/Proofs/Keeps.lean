import Verif.Spec.Leaves
import Verif.Proofs.ParseFuel
import Verif.Proofs.Text
import Verif.Props.Asm
import Verif.Props.Logic
import Verif.Props.Strings

/-! # The parsers lose nothing -/

namespace CMacro
open Parser
open Spec (Leaf Reads)

theorem Spec.Reads.append {A : Prop} {ts ts' : List MacroToken} {ls ls' : List Leaf} (h : Reads A ts ls) (h' : Reads A ts' ls') :
    Reads A (ts ++ ts') (ls ++ ls') := by
  induction h with
  | nil => exact h'
  | punct _ ih => exact .punct ih
  | comment _ ih => exact .comment ih
  | keyword hk _ ih => exact .keyword hk ih
  | asm ha _ ih => exact .asm ha ih
  | arg _ ih => exact .arg ih
  | name _ ih => exact .name ih
  | cont _ ih => rw [List.append_assoc]; exact .cont ih
  | int _ ih => exact .int ih
  | float _ ih => exact .float ih
  | char _ ih => exact .char ih
  | string _ ih => rw [List.append_assoc]; exact .string ih

/-- A continuation that is cut into pieces without loss. -/
def Splits (E : Env) (s : Str) : Prop := ∀ ids, splitCont E s = some ids →
  ∃ pieces : List Str, pieces.flatten = s ∧ ids.map Spec.contLeaf = pieces.map .name

/-- What is assumed of the input of a parser. -/
structure Fair (E : Env) (A : Prop) (i : List MacroToken) : Prop where
  asm : ∀ k ∈ Spec.asmWords, .ident k ∈ i → A
  cont : ∀ s, .identCont s ∈ i → Splits E s

theorem Fair.suffix {E : Env} {A : Prop} {c r : List MacroToken} (h : Fair E A (c ++ r)) : Fair E A r :=
  ⟨fun k hk hi => h.asm k hk (List.mem_append_right _ hi), fun s hs => h.cont s (List.mem_append_right _ hs)⟩

/-- The result of `p` has leaves `ℓ`, which are those of the tokens it consumed. -/
def Keeps (E : Env) (A : Prop) {α : Type} (p : TParser α) (ℓ : α → List Leaf) : Prop :=
  ∀ i a r, Fair E A i → p i = some (a, r) → ∃ c, i = c ++ r ∧ Reads A c (ℓ a)

/-- The parser consumes only what may be left out. -/
def Skips (E : Env) (A : Prop) {α : Type} (p : TParser α) : Prop := Keeps E A p fun _ => []

namespace Keeps
variable {E : Env} {A : Prop} {α β γ : Type}

theorem fail {ℓ : α → List Leaf} : Keeps E A (fun _ => none : TParser α) ℓ := by intro i a r _ h; cases h

theorem map {p : TParser α} {ℓ : α → List Leaf} {ℓ' : β → List Leaf} {f : α → β} (h : Keeps E A p ℓ) (hl : ∀ a, ℓ' (f a) = ℓ a) :
    Keeps E A (Parser.map p f) ℓ' := by
  intro i b r hg hb
  unfold Parser.map at hb
  split at hb
  · rename_i ha; cases hb; rw [hl]; exact h _ _ _ hg ha
  · cases hb

theorem mapOpt {p : TParser α} {ℓ : α → List Leaf} {ℓ' : β → List Leaf} {f : α → Option β} (h : Keeps E A p ℓ)
    (hl : ∀ a b, f a = some b → ℓ' b = ℓ a) : Keeps E A (Parser.mapOpt p f) ℓ' := by
  intro i b r hg hb
  unfold Parser.mapOpt at hb
  split at hb
  · rename_i ha
    split at hb
    · rename_i hf; cases hb; rw [hl _ _ hf]; exact h _ _ _ hg ha
    · cases hb
  · cases hb

theorem or {p q : TParser α} {ℓ : α → List Leaf} (h : Keeps E A p ℓ) (h' : Keeps E A q ℓ) : Keeps E A (Parser.or p q) ℓ := by
  intro i b r hg hb
  unfold Parser.or at hb
  split at hb
  · rename_i hx; cases hb; exact h _ _ _ hg hx
  · exact h' _ _ _ hg hb

/-- Two parsers after one another. -/
theorem chain {p : TParser α} {q : TParser β} {ℓ : α → List Leaf} {ℓ' : β → List Leaf} (hp : Keeps E A p ℓ) (hq : Keeps E A q ℓ')
    {i r1 r : List MacroToken} {a : α} {b : β} (hg : Fair E A i) (h1 : p i = some (a, r1)) (h2 : q r1 = some (b, r)) :
    ∃ c, i = c ++ r ∧ Reads A c (ℓ a ++ ℓ' b) := by
  obtain ⟨c, rfl, hc⟩ := hp _ _ _ hg h1
  obtain ⟨d, rfl, hd⟩ := hq _ _ _ hg.suffix h2
  exact ⟨c ++ d, by simp, hc.append hd⟩

theorem seq {p : TParser α} {q : TParser β} {ℓ : α → List Leaf} {ℓ' : β → List Leaf} (h : Keeps E A p ℓ) (h' : Keeps E A q ℓ') :
    Keeps E A (Parser.seq p q) fun x => ℓ x.1 ++ ℓ' x.2 := by
  intro i b r hg hb
  unfold Parser.seq at hb
  split at hb
  · rename_i ha
    split at hb
    · rename_i hb'
      cases hb
      exact chain h h' hg ha hb'
    · cases hb
  · cases hb

theorem preceded {p : TParser α} {q : TParser β} {ℓ : β → List Leaf} (h : Skips E A p) (h' : Keeps E A q ℓ) :
    Keeps E A (Parser.preceded p q) ℓ := (h.seq h').map fun _ => rfl

theorem terminated {p : TParser α} {q : TParser β} {ℓ : α → List Leaf} (h : Keeps E A p ℓ) (h' : Skips E A q) :
    Keeps E A (Parser.terminated p q) ℓ := (h.seq h').map fun _ => (List.append_nil _).symm

theorem delimited {p : TParser α} {q : TParser β} {o : TParser γ} {ℓ : β → List Leaf} (h : Skips E A p) (h' : Keeps E A q ℓ)
    (h'' : Skips E A o) : Keeps E A (Parser.delimited p q o) ℓ := (preceded h h').terminated h''

theorem opt {p : TParser α} {ℓ : α → List Leaf} {ℓ' : Option α → List Leaf} (h : Keeps E A p ℓ) (h1 : ∀ a, ℓ' (some a) = ℓ a)
    (h2 : ℓ' none = []) : Keeps E A (Parser.opt p) ℓ' := by
  intro i b r hg hb
  unfold Parser.opt at hb
  split at hb
  · rename_i ha; cases hb; rw [h1]; exact h _ _ _ hg ha
  · cases hb; exact ⟨[], rfl, by rw [h2]; exact .nil⟩

theorem allConsuming {p : TParser α} {ℓ : α → List Leaf} (h : Keeps E A p ℓ) : Keeps E A (Parser.allConsuming p) ℓ := by
  intro i b r hg hb
  unfold Parser.allConsuming at hb
  split at hb
  · rename_i ha; cases hb; exact h _ _ _ hg ha
  · cases hb

theorem many0F {p : TParser α} {ℓ : α → List Leaf} (h : Keeps E A p ℓ) : ∀ n, Keeps E A (Parser.many0F p n) (List.flatMap ℓ)
  | 0 => fail
  | n + 1 => by
    intro i b r hg hb
    unfold Parser.many0F at hb
    split at hb
    · cases hb; exact ⟨[], rfl, .nil⟩
    · rename_i ha
      split at hb
      · cases hb
      · split at hb
        · rename_i hm
          cases hb
          rw [List.flatMap_cons]
          exact chain h (many0F h n) hg ha hm
        · cases hb

theorem many0 {p : TParser α} {ℓ : α → List Leaf} (h : Keeps E A p ℓ) : Keeps E A (Parser.many0 p) (List.flatMap ℓ) :=
  fun i b r hg hb => h.many0F _ i b r hg hb

theorem sepList0 {p : TParser α} {q : TParser β} {ℓ : α → List Leaf} (h : Skips E A q) (h' : Keeps E A p ℓ) :
    Keeps E A (Parser.sepList0 q p) (List.flatMap ℓ) := by
  intro i b r hg hb
  unfold Parser.sepList0 at hb
  split at hb
  · cases hb; exact ⟨[], rfl, .nil⟩
  · rename_i ha
    split at hb
    · rename_i hm
      cases hb
      rw [List.flatMap_cons]
      exact chain h' (preceded h h').many0 hg ha hm
    · cases hb

theorem one {f : MacroToken → Option α} {ℓ : α → List Leaf} (h : ∀ t a, Fair E A [t] → f t = some a → Reads A [t] (ℓ a)) :
    Keeps E A (Parser.mapOpt takeOne f) ℓ := by
  intro i a r hg hi
  cases i with
  | nil => cases hi
  | cons t i =>
    unfold Parser.mapOpt at hi
    simp only [takeOne, satisfy, if_true] at hi
    split at hi
    · rename_i hf
      cases hi
      refine ⟨[t], rfl, h t a ⟨fun k hk ht => hg.asm k hk ?_, fun s hs => hg.cont s ?_⟩ hf⟩
      · simp only [List.mem_singleton] at ht; simp [ht]
      · simp only [List.mem_singleton] at hs; simp [hs]
    · cases hi

end Keeps

variable {E : Env} {A : Prop} {α β γ : Type}

namespace Skips
theorem map {p : TParser α} (h : Skips E A p) (f : α → β) : Skips E A (Parser.map p f) := Keeps.map h fun _ => rfl
theorem mapOpt {p : TParser α} (h : Skips E A p) (f : α → Option β) : Skips E A (Parser.mapOpt p f) := Keeps.mapOpt h fun _ _ _ => rfl
theorem value {p : TParser α} (h : Skips E A p) (v : β) : Skips E A (Parser.value v p) := Keeps.map h fun _ => rfl
theorem seq {p : TParser α} {q : TParser β} (h : Skips E A p) (h' : Skips E A q) : Skips E A (Parser.seq p q) := Keeps.seq h h'
theorem or {p q : TParser α} (h : Skips E A p) (h' : Skips E A q) : Skips E A (Parser.or p q) := Keeps.or h h'
theorem opt {p : TParser α} (h : Skips E A p) : Skips E A (Parser.opt p) := Keeps.opt h (fun _ => rfl) rfl
theorem many0 {p : TParser α} (h : Skips E A p) : Skips E A (Parser.many0 p) := fun i b r hg hb => by
  obtain ⟨c, hc, hr⟩ := Keeps.many0 h i b r hg hb
  refine ⟨c, hc, ?_⟩
  rwa [show List.flatMap (fun _ => ([] : List Leaf)) b = [] by simp] at hr
theorem preceded {p : TParser α} {q : TParser β} (h : Skips E A p) (h' : Skips E A q) : Skips E A (Parser.preceded p q) :=
  Keeps.preceded h h'
theorem terminated {p : TParser α} {q : TParser β} (h : Skips E A p) (h' : Skips E A q) : Skips E A (Parser.terminated p q) :=
  Keeps.terminated h h'
theorem delimited {p : TParser α} {q : TParser β} {o : TParser γ} (h : Skips E A p) (h' : Skips E A q) (h'' : Skips E A o) :
    Skips E A (Parser.delimited p q o) := Keeps.delimited h h' h''

theorem eof : Skips E A (eof : TParser Unit) := by
  intro i b r _ hb
  unfold Parser.eof at hb
  split at hb
  · rename_i h; cases hb; exact ⟨[], by simpa using h, .nil⟩
  · cases hb

/-- Tokens that may be left out. -/
def Skip (A : Prop) (t : MacroToken) : Prop := Reads A [t] []

theorem of_eats {p : TParser α} (h : Eats (Skip A) p) : Skips E A p := by
  intro i a r hg hi
  obtain ⟨c, rfl, hc⟩ := h _ _ _ hi
  refine ⟨c, rfl, ?_⟩
  clear hi hg
  induction c with
  | nil => exact .nil
  | cons t c ih =>
    exact Spec.Reads.append (ts := [t]) (ls := []) (hc t List.mem_cons_self) (ih fun x hx => hc x (List.mem_cons_of_mem _ hx))

end Skips

open Skips (Skip)

theorem Keeps.of_eats {p : TParser α} (h : Eats (Skip A) p) : Keeps E A p fun _ => [] := Skips.of_eats h

theorem eatsS_punct (p : Str) : Eats (Skip A) (punct p) := .one fun t a ht => by
  split at ht
  · exact .punct .nil
  · cases ht

theorem eatsS_keyword {k : Str} (hk : k ∈ Spec.keywords) : Eats (Skip A) (keyword k) := .one fun t a ht => by
  split at ht
  · split at ht
    · rename_i h; subst h; exact .keyword hk .nil
    · cases ht
  · cases ht

theorem eatsS_meta : Eats (Skip A) «meta» := .many0 <| .one fun t a ht => by
  split at ht
  · exact .comment .nil
  · cases ht

/-- Closes goals `Eats (Skip A) p` by the shape of `p`. -/
syntax "skips" : tactic
macro_rules | `(tactic| skips) => `(tactic| repeat (first
  | assumption
  | exact eatsS_meta | exact eatsS_keyword (by decide) | exact eatsS_punct _
  | exact Eats.eof
  | apply Eats.preceded | apply Eats.terminated | apply Eats.delimited | apply Eats.value
  | apply Eats.map | apply Eats.mapOpt | apply Eats.or | apply Eats.seq | apply Eats.opt | apply Eats.many0
  | apply Eats.sepList0 | apply Eats.permutation2 | apply Eats.permutation3 | apply Eats.permutation4
  | apply Eats.permutation5 | apply Eats.allConsuming))

theorem skips_meta : Skips E A «meta» := .of_eats eatsS_meta
theorem skips_punct (p : Str) : Skips E A (punct p) := .of_eats (eatsS_punct p)
theorem skips_keyword {k : Str} (hk : k ∈ Spec.keywords) : Skips E A (keyword k) := .of_eats (eatsS_keyword hk)
theorem skips_mid (p : Str) : Skips E A (delimited «meta» (punct p) «meta») := .of_eats (by skips)

theorem keeps_paren {p : TParser α} {ℓ : α → List Leaf} (h : Keeps E A p ℓ) : Keeps E A (parenthesized p) ℓ :=
  .delimited (.of_eats (by skips)) h (.of_eats (by skips))

/-! ## Names -/

theorem keeps_arg : Keeps E A macroArg fun i => [.arg i] := .one fun t a _ ht => by
  split at ht
  · cases ht; exact .arg .nil
  · cases ht

theorem keeps_id : Keeps E A macroId fun id => [.name id] := .one fun t a _ ht => by
  split at ht
  · cases ht; exact .name .nil
  · cases ht

theorem keeps_contPart : Keeps E A (contPart E) fun ids => ids.map Spec.contLeaf := by
  refine .or (keeps_arg.map fun _ => rfl) (.or (keeps_id.map fun _ => rfl) (.one fun t a hg ht => ?_))
  split at ht
  · rename_i s
    obtain ⟨pieces, rfl, hp⟩ := hg.cont s (by simp) a ht
    have := Reads.cont (A := A) (pieces := pieces) .nil
    rw [hp]
    simpa using this
  · cases ht

theorem push_leaves (id : IdentExpr) (ids : List IdentCont) :
    Spec.nameLeaves (id.push ids) = Spec.nameLeaves id ++ ids.map Spec.contLeaf := by
  cases id <;> simp [IdentExpr.push, Spec.nameLeaves, Spec.contLeaf]

theorem foldl_push_leaves : ∀ (parts : List (List IdentCont)) (id : IdentExpr),
    Spec.nameLeaves (parts.foldl IdentExpr.push id) = Spec.nameLeaves id ++ parts.flatMap fun ids => ids.map Spec.contLeaf
  | [], id => by simp
  | p :: ps, id => by rw [List.foldl_cons, foldl_push_leaves ps, push_leaves, List.flatMap_cons, List.append_assoc]

theorem keeps_name : Keeps E A (parseConcatIdent E) Spec.nameLeaves := by
  intro i a r hg h
  unfold parseConcatIdent at h
  split at h
  · cases h
  · rename_i id r1 h1
    have hp : Keeps E A (Parser.or (Parser.map macroArg IdentExpr.arg) (Parser.map macroId IdentExpr.plain)) Spec.nameLeaves :=
      .or (keeps_arg.map fun _ => rfl) (keeps_id.map fun _ => rfl)
    obtain ⟨c, rfl, hc⟩ := hp _ _ _ hg h1
    unfold Parser.map at h
    split at h
    · rename_i h2
      cases h
      obtain ⟨d, rfl, hd⟩ := (Keeps.preceded (skips_mid c!"##") (keeps_contPart (E := E) (A := A))).many0 _ _ _ hg.suffix h2
      exact ⟨c ++ d, by simp, by rw [foldl_push_leaves]; exact hc.append hd⟩
    · cases h

/-! ## Literals -/

theorem withPrefix_value {p : Option CharPrefix} {c : Nat} {l : LitChar} (h : LitChar.withPrefix p c = some l) :
    Spec.charValue l = c := by
  unfold LitChar.withPrefix at h
  repeat' split at h
  all_goals first | (cases h; rfl) | cases h

theorem keeps_char : Keeps E A parseLitChar fun c => [.char (Spec.charValue c)] := by
  unfold parseLitChar
  refine .or (.mapOpt (ℓ := fun x => [] ++ [.char x.2]) (.seq (ℓ := fun _ => []) (ℓ' := fun c => [.char c])
    (.of_eats ?_) (.one fun t a _ ht => ?_)) fun a b hb => ?_) (.one fun t a _ ht => ?_)
  · unfold charPrefixTok; skips
  · split at ht
    · cases ht; exact Reads.char (c := .ordinary _) .nil
    · cases ht
  · rw [withPrefix_value hb]; rfl
  · split at ht
    · cases ht; exact .char .nil
    · cases ht

theorem utf8Enc_of_dec {n : Nat} {l : List UInt8} (hv : n.isValidChar)
    (h : ∀ c : Char, c.toNat = n → utf8Enc c = l) : utf8Enc (Char.ofNat n) = l := by
  refine h _ ?_
  unfold Char.ofNat
  rw [dif_pos hv]
  rfl

theorem uint8_eq {b : UInt8} {n : Nat} (h : n = b.toNat) : UInt8.ofNat n = b := by
  subst h; exact UInt8.ofNat_toNat

/-- Decoding UTF-8 loses nothing. -/
theorem utf8EncStr_dec : ∀ (k : Nat) (bs : List UInt8) (s : Str), bs.length < k → utf8Dec bs = some s → utf8EncStr s = bs
  | 0, _, _, hk, _ => by omega
  | k + 1, [], s, _, h => by
    unfold utf8Dec at h
    cases h
    rfl
  | k + 1, b0 :: r, s, hk, h => by
    have ih := utf8EncStr_dec k
    have l0 := b0.toNat_lt
    have hval : ∀ n : Nat, n < 0xD800 → n.isValidChar := fun n hn => Or.inl hn
    have fin : ∀ (n : Nat) (l r' : List UInt8), b0 :: r = l ++ r' → r'.length < k → n.isValidChar →
        (∀ c : Char, c.toNat = n → utf8Enc c = l) → (utf8Dec r').map (Char.ofNat n :: ·) = some s → utf8EncStr s = b0 :: r := by
      intro n l r' e hl hv hc hd
      rcases hr : utf8Dec r' with _ | s'
      · rw [hr] at hd; cases hd
      · rw [hr] at hd
        cases hd
        rw [e, ← ih r' s' hl hr, utf8EncStr, List.flatMap_cons, utf8Enc_of_dec hv hc, utf8EncStr]
    simp only [List.length_cons] at hk
    unfold utf8Dec at h
    simp only at h
    split at h
    · refine fin b0.toNat [b0] r rfl (by omega) (hval _ (by omega)) (fun c hc => ?_) h
      unfold utf8Enc
      simp only [hc]
      rw [if_pos (by assumption), uint8_eq rfl]
    · split at h
      · cases h
      · split at h
        · split at h
          · rename_i b1 r
            split at h
            · rename_i hb
              split at h
              · have l1 := b1.toNat_lt
                simp only [isCont, Bool.and_eq_true, decide_eq_true_eq] at hb
                refine fin _ [b0, b1] r rfl (by simp only [List.length_cons] at hk; omega) (hval _ (by omega)) (fun c hc => ?_) h
                unfold utf8Enc
                simp only [hc]
                rw [if_neg (by omega), if_pos (by omega), uint8_eq (b := b0) (by omega), uint8_eq (b := b1) (by omega)]
              · cases h
            · cases h
          · cases h
        · split at h
          · split at h
            · rename_i b1 b2 r
              split at h
              · rename_i hb
                split at h
                · rename_i hn
                  have l1 := b1.toNat_lt
                  have l2 := b2.toNat_lt
                  simp only [isCont, Bool.and_eq_true, decide_eq_true_eq] at hb
                  refine fin _ [b0, b1, b2] r rfl (by simp only [List.length_cons] at hk; omega) hn.2 (fun c hc => ?_) h
                  unfold utf8Enc
                  simp only [hc]
                  rw [if_neg (by omega), if_neg (by omega), if_pos (by omega), uint8_eq (b := b0) (by omega),
                    uint8_eq (b := b1) (by omega), uint8_eq (b := b2) (by omega)]
                · cases h
              · cases h
            · cases h
          · split at h
            · split at h
              · rename_i b1 b2 b3 r
                split at h
                · rename_i hb
                  split at h
                  · rename_i hn
                    have l1 := b1.toNat_lt
                    have l2 := b2.toNat_lt
                    have l3 := b3.toNat_lt
                    simp only [isCont, Bool.and_eq_true, decide_eq_true_eq] at hb
                    refine fin _ [b0, b1, b2, b3] r rfl (by simp only [List.length_cons] at hk; omega) hn.2 (fun c hc => ?_) h
                    unfold utf8Enc
                    simp only [hc]
                    rw [if_neg (by omega), if_neg (by omega), if_neg (by omega), uint8_eq (b := b0) (by omega),
                      uint8_eq (b := b1) (by omega), uint8_eq (b := b2) (by omega), uint8_eq (b := b3) (by omega)]
                  · cases h
                · cases h
              · cases h
            · cases h

/-- The bytes of a text, as units. -/
abbrev strUnits (s : Str) : List Leaf := ((s.flatMap String.utf8EncodeChar).map UInt8.toNat).map .unit

theorem strUnits_dec {bs : List UInt8} {s : Str} (h : utf8Dec bs = some s) :
    strUnits s = (bs.map UInt8.toNat).map .unit := by
  have := utf8EncStr_dec _ bs s (Nat.lt_succ_self _) h
  unfold strUnits
  rw [← this, utf8EncStr_eq]

theorem strUnits_append (s t : Str) : strUnits (s ++ t) = strUnits s ++ strUnits t := by simp [strUnits]

theorem strUnits_flatten : ∀ ss : List Str, strUnits ss.flatten = ss.flatMap strUnits
  | [] => rfl
  | s :: ss => by rw [List.flatten_cons, strUnits_append, strUnits_flatten ss, List.flatMap_cons]

theorem map_unit_flatten : ∀ ws : List (List Nat), ws.flatten.map Leaf.unit = ws.flatMap fun w => w.map .unit
  | [] => rfl
  | w :: ws => by rw [List.flatten_cons, List.map_append, map_unit_flatten ws, List.flatMap_cons]

theorem map_byte_flatten : ∀ ws : List (List UInt8),
    (ws.flatten.map UInt8.toNat).map Leaf.unit = ws.flatMap fun w => (w.map UInt8.toNat).map .unit
  | [] => rfl
  | w :: ws => by rw [List.flatten_cons, List.map_append, List.map_append, map_byte_flatten ws, List.flatMap_cons]

theorem keeps_ordinary : Keeps E A ordinaryTok fun bs => (bs.map UInt8.toNat).map .unit := .one fun t a _ ht => by
  split at ht
  · cases ht
    simpa [Spec.units] using Reads.string (A := A) (s := .ordinary _) .nil
  · cases ht

theorem keeps_strTail {pre : Str} (hp : pre ∈ Spec.keywords) {f : MacroToken → Option Str}
    (h : ∀ t a, f t = some a → Reads A [t] (strUnits a)) : Keeps E A (strTail pre f) strUnits :=
  .or (.one fun t a _ ht => h t a ht)
    (.preceded (.of_eats (Eats.opt (eatsS_keyword hp))) (keeps_ordinary.mapOpt fun _ _ hb => strUnits_dec hb))

theorem keeps_cons {t : MacroToken} {ls : List Leaf} (ht : Reads A [t] ls) {p : TParser α} {ℓ : α → List Leaf} (hp : Keeps E A p ℓ)
    {i r : List MacroToken} {a : α} (hg : Fair E A (t :: i)) (h : p i = some (a, r)) :
    ∃ c, t :: i = c ++ r ∧ Reads A c (ls ++ ℓ a) := by
  obtain ⟨c, rfl, hc⟩ := hp _ _ _ (Fair.suffix (c := [t]) hg) h
  exact ⟨t :: c, rfl, ht.append (ts := [t]) hc⟩

theorem reads_string (s : LitString) : Reads A [.lit (.string s)] ((Spec.units s).map .unit) := by
  simpa using Reads.string (A := A) (s := s) .nil

theorem keeps_string : Keeps E A parseLitString fun s => (Spec.units s).map .unit := by
  intro i a r hg h
  unfold parseLitString at h
  split at h
  · rename_i bs r'
    obtain ⟨x, hx, rfl⟩ := map_inv h
    obtain ⟨c, hc, hr⟩ := keeps_cons (reads_string (.ordinary bs)) keeps_ordinary.many0 hg hx
    exact ⟨c, hc, by
      simp only [Spec.units]
      rw [List.map_append, List.map_append, map_byte_flatten]; exact hr⟩
  · rename_i s r'
    obtain ⟨x, hx, rfl⟩ := map_inv h
    obtain ⟨c, hc, hr⟩ := keeps_cons (reads_string (.utf8 s)) (keeps_strTail (by decide) (fun t a ht => by
      split at ht
      · cases ht; exact reads_string (.utf8 _)
      · cases ht)).many0 hg hx
    exact ⟨c, hc, by
      show Reads A c (strUnits (s ++ x.flatten))
      rw [strUnits_append, strUnits_flatten]; exact hr⟩
  · rename_i s r'
    obtain ⟨x, hx, rfl⟩ := map_inv h
    obtain ⟨c, hc, hr⟩ := keeps_cons (reads_string (.utf16 s)) (keeps_strTail (by decide) (fun t a ht => by
      split at ht
      · cases ht; exact reads_string (.utf16 _)
      · cases ht)).many0 hg hx
    exact ⟨c, hc, by
      show Reads A c (strUnits (s ++ x.flatten))
      rw [strUnits_append, strUnits_flatten]; exact hr⟩
  · rename_i s r'
    obtain ⟨x, hx, rfl⟩ := map_inv h
    obtain ⟨c, hc, hr⟩ := keeps_cons (reads_string (.utf32 s)) (keeps_strTail (by decide) (fun t a ht => by
      split at ht
      · cases ht; exact reads_string (.utf32 _)
      · cases ht)).many0 hg hx
    exact ⟨c, hc, by
      show Reads A c (strUnits (s ++ x.flatten))
      rw [strUnits_append, strUnits_flatten]; exact hr⟩
  · rename_i ws r'
    obtain ⟨x, hx, rfl⟩ := map_inv h
    have hp : Keeps E A (Parser.or
      (Parser.mapOpt takeOne fun
        | .lit (.string (.wide ws)) => some ws
        | _ => none)
      (preceded (opt (keyword c!"L")) (Parser.map ordinaryTok fun bs => bs.map UInt8.toNat))) fun ws => ws.map .unit :=
      .or (.one fun t a _ ht => by
        split at ht
        · cases ht; exact reads_string (.wide _)
        · cases ht) (.preceded (.of_eats (Eats.opt (eatsS_keyword (by decide)))) (keeps_ordinary.map fun _ => rfl))
    obtain ⟨c, hc, hr⟩ := keeps_cons (reads_string (.wide ws)) hp.many0 hg hx
    exact ⟨c, hc, by
      simp only [Spec.units]
      rw [List.map_append, map_unit_flatten]; exact hr⟩
  · cases h

theorem keeps_lit : Keeps E A parseLit Spec.litLeaves :=
  .or (keeps_char.map fun _ => rfl) <| .or (keeps_string.map fun _ => rfl) <|
  .or (.map (.one (ℓ := fun f => [.float f]) fun t a _ ht => by
      split at ht
      · cases ht; exact .float .nil
      · cases ht) fun _ => rfl)
    (.map (.one (ℓ := fun n => [.int n]) fun t a _ ht => by
      split at ht
      · cases ht; exact .int .nil
      · cases ht) fun _ => rfl)

/-! ## Types -/

theorem qualify_leaves (t : Ty) (q : Qualifier) : Spec.tyLeaves (t.qualify q) = Spec.tyLeaves t := by
  cases t <;> rfl

theorem qualifyOpt_leaves (t : Ty) (q : Option Qualifier) : Spec.tyLeaves (t.qualifyOpt q) = Spec.tyLeaves t := by
  cases q with
  | none => rfl
  | some q => exact qualify_leaves t q

theorem eatsS_constVolatile : Eats (Skip A) constVolatile := by unfold constVolatile; skips

theorem skips_constVolatile : Skips E A (opt constVolatile) := .of_eats (Eats.opt eatsS_constVolatile)

theorem keeps_intTy : Keeps E A intTy Spec.tyLeaves := by
  have hc := eatsS_constVolatile (A := A)
  unfold intTy
  refine .or ?_ (.or ?_ ?_)
  · unfold intTyLongLong
    refine .mapOpt (ℓ := fun _ => []) (.of_eats ?_) fun a b hb => ?_
    · unfold qualPart optPart intSignedness kwPart; skips
    · split at hb
      · cases hb; rw [qualifyOpt_leaves]; rfl
      · cases hb
  · unfold intTyLength
    refine .mapOpt (ℓ := fun _ => []) (.of_eats ?_) fun a b hb => ?_
    · unfold qualPart optPart intSignedness intLength kwPart; skips
    · split at hb
      · cases hb; rw [qualifyOpt_leaves]; rfl
      · cases hb
  · unfold intTyPlain
    refine .mapOpt (ℓ := fun _ => []) (.of_eats ?_) fun a b hb => ?_
    · unfold qualPart optPart intSignedness kwPart; skips
    · split at hb
      · cases hb; rw [qualifyOpt_leaves]; rfl
      · cases hb

theorem keeps_simpleTy : Keeps E A simpleTy Spec.tyLeaves := by
  have hv : ∀ {k : Str} (b : BuiltInType), k ∈ Spec.keywords → Keeps E A (value (Ty.builtIn b) (keyword k)) Spec.tyLeaves :=
    fun b hk => .map (skips_keyword hk) fun _ => rfl
  unfold simpleTy
  refine .map (.seq skips_constVolatile (.or (hv _ (by decide)) <| .or (hv _ (by decide)) <| .or (hv _ (by decide)) ?_)) fun x => ?_
  · unfold doubleTy
    have hc := eatsS_constVolatile (A := A)
    refine .map (ℓ := fun _ => []) (.of_eats (by skips)) fun x => ?_
    rw [qualifyOpt_leaves]; rfl
  · rw [qualifyOpt_leaves]; rfl

theorem keeps_identTy : Keeps E A (identTy E) Spec.tyLeaves := by
  unfold identTy
  refine .map (.seq skips_constVolatile (.seq (ℓ := fun _ => []) (.of_eats (by skips)) keeps_name)) fun x => ?_
  rw [qualifyOpt_leaves]; rfl

theorem addPtr_leaves : ∀ (qs : List (Option Qualifier)) (t : Ty), Spec.tyLeaves (qs.foldl Ty.addPtr t) = Spec.tyLeaves t
  | [], _ => rfl
  | q :: qs, t => by rw [List.foldl_cons, addPtr_leaves qs, Ty.addPtr, qualifyOpt_leaves]; rfl

theorem keeps_ty : Keeps E A (parseTy E) Spec.tyLeaves := by
  intro i a r hg h
  unfold parseTy at h
  split at h
  · cases h
  · rename_i t q r1 h1
    obtain ⟨qs, h2, rfl⟩ := map_inv h
    have hb : Keeps E A (tyBase E) Spec.tyLeaves := .or keeps_simpleTy (.or keeps_intTy keeps_identTy)
    have hc := eatsS_constVolatile (A := A)
    have hs : Skips E A (many0 (preceded (seq (punct c!"*") «meta») (opt constVolatile))) := .of_eats (by skips)
    obtain ⟨c, hc, hr⟩ := Keeps.chain (hb.seq skips_constVolatile) hs hg h1 h2
    refine ⟨c, hc, ?_⟩
    rw [addPtr_leaves, qualifyOpt_leaves]
    simpa using hr

/-! ## Expressions -/

theorem exprsLeaves_eq : ∀ es : List Expr, Spec.exprsLeaves es = es.flatMap Spec.exprLeaves
  | [] => rfl
  | e :: es => by rw [Spec.exprsLeaves, exprsLeaves_eq es, List.flatMap_cons]

theorem pushPart_leaves (a e : Expr) : Spec.exprLeaves (a.pushPart e) = Spec.exprLeaves a ++ Spec.exprLeaves e := by
  cases a <;> simp [Expr.pushPart, Spec.exprLeaves, exprsLeaves_eq]

theorem foldl_pushPart_leaves : ∀ (ps : List Expr) (a : Expr),
    Spec.exprLeaves (ps.foldl Expr.pushPart a) = Spec.exprLeaves a ++ ps.flatMap Spec.exprLeaves
  | [], a => by simp
  | p :: ps, a => by rw [List.foldl_cons, foldl_pushPart_leaves ps, pushPart_leaves, List.flatMap_cons, List.append_assoc]

theorem keeps_concatPart : Keeps E A (concatPart E) Spec.exprLeaves := by
  unfold concatPart parseStringify
  exact .or (.or (keeps_string.map fun _ => rfl) (.preceded (.of_eats (by skips))
    (.or (keeps_arg.map fun _ => rfl) (keeps_id.map fun _ => rfl)))) (keeps_name.map fun _ => rfl)

theorem keeps_concatString : Keeps E A (parseConcatString E) Spec.exprLeaves := by
  intro i a r hg h
  unfold parseConcatString at h
  split at h
  · cases h
  · rename_i s r1 h1
    obtain ⟨ps, h2, rfl⟩ := map_inv h
    rw [foldl_pushPart_leaves]
    exact Keeps.chain keeps_concatPart (Keeps.preceded skips_meta keeps_concatPart).many0 hg h1 h2

structure KeepsRec (E : Env) (A : Prop) (R : Rec) : Prop where
  prec2 : Keeps E A R.prec2 Spec.exprLeaves
  prec13 : Keeps E A R.prec13 Spec.exprLeaves
  expr : Keeps E A R.expr Spec.exprLeaves

/-- The leaves of a postfix access. -/
def accessLeaves : Access → List Leaf
  | .fn args => Spec.exprsLeaves args
  | .field name _ => Spec.nameLeaves name
  | .array e => Spec.exprLeaves e
  | .post _ => []

variable {R : Rec}

theorem keeps_factor (h : KeepsRec E A R) : Keeps E A (parseFactor E R) Spec.exprLeaves :=
  .or (.map (.preceded (skips_keyword (by decide)) (keeps_paren keeps_ty)) fun _ => rfl) <|
  .or (keeps_char.map fun _ => rfl) <| .or keeps_concatString <| .or (keeps_lit.map fun _ => rfl) (keeps_paren h.expr)

theorem keeps_access (h : KeepsRec E A R) : Keeps E A (parseAccess E R) accessLeaves := by
  unfold parseAccess
  refine .preceded skips_meta <|
    .or (.map (keeps_paren (.sepList0 (skips_mid _) h.expr)) fun _ => by simp [accessLeaves, exprsLeaves_eq]) <|
    .or (.map (.preceded (.of_eats (by skips)) keeps_name) fun _ => rfl) <|
    .or (.map (.delimited (.of_eats (by skips)) h.expr (.of_eats (by skips))) fun _ => rfl) <|
    .or (.map (.preceded (.of_eats (by skips)) keeps_name) fun _ => rfl) <|
    .map (ℓ := fun _ => []) (.of_eats (by skips)) fun _ => rfl

theorem access_leaves {e e' : Expr} {b b' : Bool} {a : Access} (h : Expr.access (some (e, b)) a = some (e', b')) :
    Spec.exprLeaves e' = Spec.exprLeaves e ++ accessLeaves a := by
  unfold Expr.access at h
  split at h
  · cases h
  · rename_i hx
    cases hx
    split at h
    · split at h
      · cases h
      · cases h; simp [Spec.exprLeaves, accessLeaves]
    · cases h; simp [Spec.exprLeaves, accessLeaves]
    · split at h
      · cases h
      · cases h
        split <;> simp [Spec.exprLeaves, accessLeaves]
    · split at h
      · cases h
      · cases h; simp [Spec.exprLeaves, accessLeaves]
    · cases h

theorem foldl_access_none : ∀ as : List Access, as.foldl Expr.access none = none
  | [] => rfl
  | a :: as => by rw [List.foldl_cons]; exact foldl_access_none as

theorem foldl_access_leaves : ∀ (as : List Access) (e e' : Expr) (b b' : Bool),
    as.foldl Expr.access (some (e, b)) = some (e', b') → Spec.exprLeaves e' = Spec.exprLeaves e ++ as.flatMap accessLeaves
  | [], e, e', b, b', h => by cases h; simp
  | a :: as, e, e', b, b', h => by
    rw [List.foldl_cons] at h
    rcases ha : Expr.access (some (e, b)) a with _ | ⟨e1, b1⟩
    · rw [ha, foldl_access_none] at h; cases h
    · rw [ha] at h
      rw [foldl_access_leaves as _ _ _ _ h, access_leaves ha, List.flatMap_cons, List.append_assoc]

theorem keeps_prec1 (h : KeepsRec E A R) : Keeps E A (prec1 E R) Spec.exprLeaves := by
  intro i a r hg hi
  unfold prec1 at hi
  split at hi
  · cases hi
  · rename_i e r1 h1
    unfold Parser.mapOpt at hi
    split at hi
    · rename_i as r2 h2
      split at hi
      · rename_i x hx
        cases hi
        simp only at hx
        rcases hf : as.foldl Expr.access (some (e, false)) with _ | ⟨e', b'⟩
        · rw [hf] at hx; cases hx
        · rw [hf] at hx
          cases hx
          rw [foldl_access_leaves as _ _ _ _ hf]
          exact Keeps.chain (keeps_factor h) (keeps_access h).many0 hg h1 h2
      · cases hi
    · cases hi

theorem keeps_prec2 (h : KeepsRec E A R) : Keeps E A (prec2 E R) Spec.exprLeaves := by
  unfold prec2 prefixOp
  exact .or (.map (.seq (keeps_paren keeps_ty) h.prec2) fun _ => by simp [Spec.exprLeaves]) <|
    .or (.map (.seq (ℓ := fun _ => []) (.of_eats (by skips)) h.prec2) fun _ => by simp [Spec.exprLeaves]) (keeps_prec1 h)

theorem foldl_bin_leaves : ∀ (l : List (BinOp × Expr)) (t : Expr),
    Spec.exprLeaves (l.foldl (fun lhs (x : BinOp × Expr) => .bin lhs x.1 x.2) t) =
      Spec.exprLeaves t ++ l.flatMap fun x => [] ++ Spec.exprLeaves x.2
  | [], t => by simp
  | x :: l, t => by rw [List.foldl_cons, foldl_bin_leaves l, List.flatMap_cons]; simp [Spec.exprLeaves]

theorem keeps_binLevel {sub : TParser Expr} {op : TParser BinOp} (h : Keeps E A sub Spec.exprLeaves) (h' : Eats (Skip A) op) :
    Keeps E A (binLevel sub op) Spec.exprLeaves := by
  intro i a r hg hi
  unfold binLevel at hi
  split at hi
  · cases hi
  · rename_i t r1 h1
    obtain ⟨l, h2, rfl⟩ := map_inv hi
    rw [foldl_bin_leaves]
    exact Keeps.chain h (Keeps.seq (ℓ := fun _ => []) (.of_eats (by skips)) h).many0 hg h1 h2

theorem keeps_prec10 (h : KeepsRec E A R) : Keeps E A (prec10 E R) Spec.exprLeaves := by
  unfold prec10 prec9 prec8 prec7 prec6 prec5 prec4 prec3
  refine keeps_binLevel (keeps_binLevel (keeps_binLevel (keeps_binLevel (keeps_binLevel (keeps_binLevel (keeps_binLevel
    (keeps_binLevel (keeps_prec2 h) ?_) ?_) ?_) ?_) ?_) ?_) ?_) ?_
  · unfold op3; skips
  · unfold op4; skips
  · unfold op5; skips
  · unfold op6; skips
  · unfold op7; skips
  · unfold op8; skips
  · unfold op9; skips
  · unfold op10; skips

theorem keeps_prec13 (h : KeepsRec E A R) : Keeps E A (prec13 E R) Spec.exprLeaves := by
  intro i a r hg hi
  unfold prec13 at hi
  split at hi
  · cases hi
  · rename_i c r1 hc
    split at hi
    · cases hi; exact keeps_prec10 h _ _ _ hg hc
    · rename_i r2 hd
      obtain ⟨x, rfl, hx⟩ := keeps_prec10 h _ _ _ hg hc
      obtain ⟨⟨t, f⟩, h2, rfl⟩ := map_inv hi
      obtain ⟨y, hy, hr⟩ := Keeps.chain (skips_mid c!"?") (h.expr.seq (.preceded (skips_mid c!":") h.prec13)) hg.suffix hd h2
      subst hy
      exact ⟨x ++ y, by simp, by simpa [Spec.exprLeaves] using hx.append hr⟩

theorem keeps_prec14 (h : KeepsRec E A R) : Keeps E A (prec14 E R) Spec.exprLeaves := by
  intro i a r hg hi
  unfold prec14 at hi
  split at hi
  · cases hi
  · rename_i t r1 h1
    obtain ⟨l, h2, rfl⟩ := map_inv hi
    rw [foldl_bin_leaves]
    refine Keeps.chain (keeps_prec13 h) (Keeps.seq (ℓ := fun _ => []) (.of_eats ?_) h.expr).many0 hg h1 h2
    unfold op14
    skips

theorem keeps_tie : ∀ n, KeepsRec E A (tie E n)
  | 0 => ⟨.fail, .fail, .fail⟩
  | n + 1 => ⟨keeps_prec2 (keeps_tie n), keeps_prec13 (keeps_tie n), keeps_prec14 (keeps_tie n)⟩

theorem keeps_expr : Keeps E A (parseExpr E) Spec.exprLeaves := fun i => (keeps_tie _).expr i

/-! ## Statements -/

theorem eatsS_string (ha : A) : Eats (Skip A) parseLitString := by
  have hs : ∀ s : LitString, Skip A (.lit (.string s)) := fun s => .asm ha .nil
  have ho : Eats (Skip A) ordinaryTok := .one fun t a ht => by
    split at ht
    · exact hs _
    · cases ht
  have cons : ∀ {β : Type} {t : MacroToken} (_ : Skip A t) {p : TParser β} (_ : Eats (Skip A) p) {i r : List MacroToken} {b : β},
      p i = some (b, r) → ∃ c, t :: i = c ++ r ∧ ∀ x ∈ c, Skip A x := by
    intro β t ht p hp i r b h
    obtain ⟨c, rfl, hc⟩ := hp _ _ _ h
    exact ⟨t :: c, rfl, fun x hx => by
      rcases List.mem_cons.1 hx with rfl | hx
      · exact ht
      · exact hc x hx⟩
  have tail : ∀ {pre : Str} (_ : pre ∈ Spec.keywords) {f : MacroToken → Option Str}, (∀ t a, f t = some a → Skip A t) →
      Eats (Skip A) (strTail pre f) := by
    intro pre hp f hf
    have := eatsS_keyword (A := A) hp
    exact .or (.one hf) (by skips)
  intro i a r h
  unfold parseLitString at h
  split at h
  · exact cons (hs _) (by skips) h
  · refine cons (hs _) (.map (.many0 (tail (by decide) fun t a ht => ?_)) _) h
    split at ht
    · exact hs _
    · cases ht
  · refine cons (hs _) (.map (.many0 (tail (by decide) fun t a ht => ?_)) _) h
    split at ht
    · exact hs _
    · cases ht
  · refine cons (hs _) (.map (.many0 (tail (by decide) fun t a ht => ?_)) _) h
    split at ht
    · exact hs _
    · cases ht
  · refine cons (hs _) (.map (.many0 (.or (.one fun t a ht => ?_) (by skips))) _) h
    split at ht
    · exact hs _
    · cases ht
  · cases h

theorem keyword_head {k : Str} {i r : List MacroToken} {u : Unit} (h : keyword k i = some (u, r)) : .ident k ∈ i := by
  cases i with
  | nil => cases h
  | cons t i =>
    unfold keyword Parser.mapOpt at h
    simp only [takeOne, satisfy, if_true] at h
    split at h
    · rename_i hf
      split at hf
      · split at hf
        · rename_i he; subst he; simp
        · cases hf
      · cases hf
    · cases h

theorem asm_head {i r : List MacroToken} {a : Asm} (h : parseAsm E i = some (a, r)) : ∃ k ∈ Spec.asmWords, .ident k ∈ i := by
  unfold parseAsm at h
  obtain ⟨x, h, -⟩ := map_inv h
  obtain ⟨y, h, -⟩ := map_inv h
  obtain ⟨r1, h1, -⟩ := seq_inv h
  obtain ⟨z, h1, -⟩ := map_inv h1
  obtain ⟨r2, h1, -⟩ := seq_inv h1
  rcases or_inv h1 with h1 | ⟨-, h1⟩
  · exact ⟨_, by simp [Spec.asmWords], keyword_head h1⟩
  · rcases or_inv h1 with h1 | ⟨-, h1⟩
    · exact ⟨_, by simp [Spec.asmWords], keyword_head h1⟩
    · exact ⟨_, by simp [Spec.asmWords], keyword_head h1⟩

theorem keeps_asm : Keeps E A (parseAsm E) Spec.asmLeaves := by
  intro i a r hg h
  obtain ⟨k, hk, hi⟩ := asm_head h
  have hs := eatsS_string (hg.asm k hk hi)
  have hm : ∀ {β : Type} (f : Str → Option β), Skips E A (litStringMap f) := fun f => .of_eats (hs.mapOpt _)
  have hsep : ∀ p, Skips E A (sepBy p) := skips_mid
  have hout : Keeps E A (opt (preceded (sepBy c!":") (sepList0 (sepBy c!",")
      (seq (litStringMap parseOutputOperands) (parenthesized (parseExpr E)))))) fun o =>
        (o.getD []).flatMap fun x => [] ++ Spec.exprLeaves x.2 :=
    .opt (.preceded (hsep _) (.sepList0 (hsep _) (.seq (hm _) (keeps_paren keeps_expr)))) (fun _ => rfl) rfl
  have hin : Keeps E A (opt (preceded (sepBy c!":") (sepList0 (sepBy c!",")
      (seq (litStringMap parseInputOperands) (parenthesized (parseExpr E)))))) fun o =>
        (o.getD []).flatMap fun x => [] ++ Spec.exprLeaves x.2 :=
    .opt (.preceded (hsep _) (.sepList0 (hsep _) (.seq (hm _) (keeps_paren keeps_expr)))) (fun _ => rfl) rfl
  have hcl : Skips E A (opt (preceded (sepBy c!":") (sepList0 (sepBy c!",") (litStringMap some)))) := by
    refine .of_eats ?_
    unfold sepBy litStringMap
    skips
  have hall : Keeps E A (parseAsm E) Spec.asmLeaves := by
    unfold parseAsm
    refine .map (.preceded (.of_eats (by skips)) (keeps_paren (.seq (.delimited skips_meta (hm _) skips_meta)
      (.seq hout (.seq hin hcl))))) fun x => ?_
    simp [Spec.asmLeaves, List.flatMap_map]
  exact hall i a r hg h

theorem staticTy_inv {i r : List MacroToken} {x : Bool × Ty} (h : staticTy E i = some (x, r)) :
    ∃ o r1, opt (keyword c!"static") i = some (o, r1) ∧ parseTy E r1 = some (x.2, r) := by
  obtain ⟨o, r1, ho⟩ : ∃ o r1, opt (keyword c!"static") i = some (o, r1) := by
    unfold Parser.opt
    split
    · exact ⟨_, _, rfl⟩
    · exact ⟨_, _, rfl⟩
  refine ⟨o, r1, ho, ?_⟩
  unfold staticTy permutation at h
  rcases ht : parseTy E r1 with _ | ⟨t, r2⟩
  · simp [permGo, permStep, permDone, Parser.map, Parser.mapOpt, ho, ht] at h
  · simp [permGo, permStep, permDone, Parser.map, Parser.mapOpt, ho, ht] at h
    obtain ⟨rfl, rfl⟩ := h
    rfl

theorem keeps_staticTy : Keeps E A (staticTy E) fun x => Spec.tyLeaves x.2 := by
  intro i x r hg h
  obtain ⟨o, r1, h1, h2⟩ := staticTy_inv h
  have hs : Skips E A (opt (keyword c!"static")) := .of_eats (by skips)
  exact Keeps.chain hs keeps_ty hg h1 h2

theorem keeps_functionDecl : Keeps E A (parseFunctionDecl E) fun f => Spec.stmtLeaves (.fnDecl f) := by
  unfold parseFunctionDecl
  refine .map (.seq keeps_staticTy (.seq keeps_name (keeps_paren
    (.sepList0 (.of_eats (by skips)) (.seq keeps_ty keeps_name))))) fun x => ?_
  simp [Spec.stmtLeaves]

theorem keeps_varDecl : Keeps E A (parseVarDecl E) fun d => Spec.stmtLeaves (.varDecl d) := by
  unfold parseVarDecl
  refine .map (.seq keeps_staticTy (.seq keeps_name (.seq (skips_punct _) keeps_expr))) fun x => ?_
  simp [Spec.stmtLeaves]

theorem stmtsLeaves_eq : ∀ ss : List Stmt, Spec.stmtsLeaves ss = ss.flatMap Spec.stmtLeaves
  | [] => rfl
  | s :: ss => by rw [Spec.stmtsLeaves, stmtsLeaves_eq ss, List.flatMap_cons]

theorem toBlock_leaves (s : Stmt) : Spec.stmtsLeaves s.toBlock = Spec.stmtLeaves s := by
  cases s <;> simp [Stmt.toBlock, Spec.stmtsLeaves, Spec.stmtLeaves]

theorem keeps_single : ∀ n, Keeps E A (parseSingle E n) Spec.stmtLeaves
  | 0 => .fail
  | n + 1 => by
    have hb : Keeps E A (Parser.map (parseSingle E n) Stmt.toBlock) Spec.stmtsLeaves := (keeps_single n).map toBlock_leaves
    have hs : Skips E A semicolonOrEof := .of_eats (by unfold semicolonOrEof; skips)
    unfold parseSingle
    refine .or (.map (keeps_asm.terminated hs) fun _ => rfl) <|
      .or (.map (.seq (.preceded (.of_eats (by skips)) (keeps_paren keeps_expr)) (.seq hb
        (.opt (ℓ' := fun o => Spec.stmtsLeaves (o.getD [])) (.preceded (.of_eats (by skips)) hb) (fun _ => rfl) rfl)))
        fun _ => by simp [Spec.stmtLeaves]) <|
      .or (.map (.preceded (.of_eats (by skips)) (.seq hb (.preceded (skips_keyword (by decide)) (keeps_paren keeps_expr))))
        fun _ => by simp [Spec.stmtLeaves]) <|
      .or (.map (.delimited (.of_eats (by skips)) (.many0 (.preceded skips_meta (keeps_single n))) (.of_eats (by skips)))
        fun _ => by simp [Spec.stmtLeaves, stmtsLeaves_eq]) <|
      .or (.map (keeps_functionDecl.terminated hs) fun _ => rfl) <|
      .or (.map (keeps_varDecl.terminated hs) fun _ => rfl) (.map (keeps_expr.terminated hs) fun _ => by simp [Spec.stmtLeaves])

theorem keeps_stmt : Keeps E A (parseStmt E) Spec.stmtLeaves := by
  intro i a r hg h
  unfold parseStmt at h
  have hk : Keeps E A (Parser.map (many0 (delimited «meta» (parseSingle E (i.length + 1)) «meta»)) (fun
    | [s] => s
    | ss => Stmt.block ss)) Spec.stmtLeaves :=
    .map (Keeps.delimited skips_meta (keeps_single _) skips_meta).many0 fun ss => by
      split
      · simp
      · simp [Spec.stmtLeaves, stmtsLeaves_eq]
  exact hk i a r hg h

theorem keeps_body : Keeps E A (MacroBody.parse E) Spec.bodyLeaves := by
  intro i a r hg h
  unfold MacroBody.parse at h
  split at h
  · cases h
  · rename_i hm
    cases h
    exact skips_meta _ _ _ hg hm
  · rename_i _ hm
    have hp : Keeps E A (Parser.or (allConsuming (Parser.map (parseExpr E) MacroBody.expr)) (allConsuming (Parser.map (parseStmt E) .stmt)))
        Spec.bodyLeaves := .or (Keeps.allConsuming (keeps_expr.map fun _ => rfl)) (Keeps.allConsuming (keeps_stmt.map fun _ => rfl))
    exact Keeps.chain skips_meta hp hg hm h

end CMacro
