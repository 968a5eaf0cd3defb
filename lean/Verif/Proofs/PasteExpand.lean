import Verif.Spec.Paste
import Verif.Proofs.Panic2
import Verif.Proofs.ExpandTop
import Verif.Proofs.Concat

/-! # The textbook relation with `##` is what the model computes -/

namespace CMacro
open Spec (Item Table Def Call PElem Pastes Replaces ReplacesAll IsWord IsNumber Joins SpelledAs
  NotComment NextToPaste OperandKept argumentOf fillBody asOperand)

variable {E : Env} {ms : MacroSet}

/-! ## Words and numbers -/

theorem ascii_notCont (L : E.Lawful) {c : Char} (hc : c.toNat < 128)
    (h : (c.isAlphanum || c == '_') = false) : E.xidContinue c = false := by
  rw [L.contAscii c hc]; simpa using h

/-- Characters of words and numbers. -/
def NumChar (E : Env) (c : Char) : Prop := E.xidContinue c = true ∨ c = '.' ∨ c = '+' ∨ c = '-'

theorem numChar_ne (L : E.Lawful) {c d : Char} (h : NumChar E c) (hd : d.toNat < 128)
    (hn : (d.isAlphanum || d == '_') = false) (h1 : d ≠ '.') (h2 : d ≠ '+') (h3 : d ≠ '-') :
    c ≠ d := by
  rintro rfl
  rcases h with h | h | h | h
  · rw [ascii_notCont L hd hn] at h; simp at h
  · exact h1 h
  · exact h2 h
  · exact h3 h

/-- A word or a number. -/
def PastePiece (E : Env) (s : Str) : Prop := IsWord E.xidContinue s ∨ IsNumber E.xidContinue s

theorem PastePiece.chars {s : Str} (h : PastePiece E s) : ∀ c ∈ s, NumChar E c := by
  rcases h with h | h
  · exact fun c hc => .inl (h.2 c hc)
  · exact h.2

theorem PastePiece.ne_nil {s : Str} (h : PastePiece E s) : s ≠ [] := by
  rcases h with h | ⟨⟨d, t, h | h, _⟩, _⟩
  · exact h.1
  · simp [h]
  · simp [h]

theorem noBackslash (L : E.Lawful) {s : Str} (h : ∀ c ∈ s, NumChar E c) : '\\' ∉ s := fun hm =>
  numChar_ne L (h _ hm) (d := '\\') (by decide) (by decide) (by decide) (by decide) (by decide) rfl

theorem noComment (L : E.Lawful) {s : Str} (h : ∀ c ∈ s, NumChar E c) : ¬ c!"/*" <+: s := fun hm =>
  numChar_ne L (h '/' (hm.subset (by decide))) (d := '/') (by decide) (by decide) (by decide)
    (by decide) (by decide) rfl

theorem unquoted_num (L : E.Lawful) {s : Str} (h : ∀ c ∈ s, NumChar E c) : Unquoted s :=
  ⟨fun hm => numChar_ne L (h _ hm) (d := '"') (by decide) (by decide) (by decide) (by decide)
      (by decide) rfl,
   fun hm => numChar_ne L (h _ hm) (d := '\'') (by decide) (by decide) (by decide) (by decide)
      (by decide) rfl⟩

/-- A word or number, and whatever follows it, is not a punctuator. -/
theorem PastePiece.notPunct (L : E.Lawful) {s : Str} (h : PastePiece E s) (t : Str) : s ++ t ∉ punctTable := by
  intro hm
  rcases h with ⟨h1, h2⟩ | ⟨⟨d, r, hs, hd⟩, _⟩
  · have key : ∀ s ∈ punctTable, ∀ c, s.head? = some c →
        c.toNat < 128 ∧ (c.isAlphanum || c == '_') = false := by decide
    cases s with
    | nil => exact h1 rfl
    | cons c cs =>
      obtain ⟨k1, k2⟩ := key _ hm c rfl
      have := h2 c List.mem_cons_self
      rw [ascii_notCont L k1 k2] at this
      simp at this
  · have key : ∀ s ∈ punctTable, (∀ c, s.head? = some c → c.isDigit = false) ∧
        (∀ c r, s = '.' :: c :: r → c.isDigit = false) := by
      intro s hs
      have k1 : ∀ s ∈ punctTable, (s.head?.map Char.isDigit).getD false = false := by decide
      have k2 : ∀ s ∈ punctTable, (s[1]?.map Char.isDigit).getD false = false := by decide
      refine ⟨fun c hc => by have := k1 s hs; rw [hc] at this; simpa using this, ?_⟩
      rintro c r rfl
      simpa using k2 _ hs
    rcases hs with rfl | rfl
    · have := (key _ hm).1 d rfl
      rw [hd] at this; simp at this
    · have := (key _ hm).2 d (r ++ t) rfl
      rw [hd] at this; simp at this

theorem digit_notStart (L : E.Lawful) {d : Char} (h : d.isDigit = true) : isIdentStart E d = false := by
  simp only [Char.isDigit, Bool.and_eq_true, decide_eq_true_eq, ge_iff_le, UInt32.le_iff_toNat_le] at h
  have e0 : '0'.val.toNat = 48 := rfl
  have e9 : '9'.val.toNat = 57 := rfl
  have eA : 'A'.val.toNat = 65 := rfl
  have ea : 'a'.val.toNat = 97 := rfl
  have hd : d.toNat = d.val.toNat := rfl
  have hlt : d.toNat < 128 := by omega
  have ha : d.isAlpha = false := by
    simp only [Char.isAlpha, Char.isUpper, Char.isLower, Bool.or_eq_false_iff,
      decide_eq_false_iff_not, ge_iff_le, UInt32.le_iff_toNat_le, Bool.and_eq_false_iff]
    omega
  have hu : d ≠ '_' := by
    rintro rfl
    have : '_'.val.toNat = 95 := rfl
    omega
  simp [isIdentStart, L.startAscii d hlt, ha, hu]

/-- A number is not an identifier. -/
theorem number_notIdent (L : E.Lawful) {s : Str} (h : IsNumber E.xidContinue s) :
    ¬ Spec.IsIdent E.xidStart E.xidContinue s := by
  obtain ⟨⟨d, t, hs, hd⟩, _⟩ := h
  rcases hs with rfl | rfl
  · intro hi
    have := digit_notStart L hd
    simp only [isIdentStart] at this
    rcases hi.1 with h | h <;> simp [h] at this
  · intro hi
    have := hi.1
    rw [L.startAscii '.' (by decide)] at this
    simp at this

/-- Words and numbers can be pasted. -/
theorem joins_concat (L : E.Lawful) {a b : Str} (h : Joins E.xidContinue a b) :
    (Token.fromStr E a).concat E (Token.fromStr E b) = .ok (Token.fromStr E (a ++ b)) := by
  obtain ⟨⟨hva, hvb, hv⟩, hj⟩ := h
  have pa : PastePiece E a := by
    rcases hj with h | h
    · exact .inl h.1
    · exact .inr h.1
  have pb : PastePiece E b := by
    rcases hj with h | h
    · exact .inl h.2
    · exact h.2
  have ha := noBackslash L pa.chars
  have hb := noBackslash L pb.chars
  have hab : ∀ c ∈ a ++ b, NumChar E c := by
    intro c hc
    rcases List.mem_append.1 hc with hc | hc
    · exact pa.chars c hc
    · exact pb.chars c hc
  have Fa := fromStr_spec (E := E) ha
  have Fb := fromStr_spec (E := E) hb
  suffices ∃ t, (Token.fromStr E a).concat E (Token.fromStr E b) = .ok t by
    obtain ⟨t, ht⟩ := this
    rw [ht, concat_fromStr L ha hb hv (pa.notPunct L b) (noComment L hab) ht]
  have hnum : ∀ {s : Str} {l : Lit}, PastePiece E s → Lit.tryFrom s = some l →
      (∃ f, l = .float f) ∨ ∃ n, l = .int n := by
    intro s l hp hl
    have hu := unquoted_num L hp.chars
    rcases litTryFrom_inv hl with ⟨c, rfl, h⟩ | ⟨c, rfl, h⟩ | ⟨c, rfl, h⟩ | ⟨c, rfl, h⟩
    · exact absurd (mem_of_litChar h) hu.2
    · exact absurd (mem_of_litString h) hu.1
    · exact .inl ⟨_, rfl⟩
    · exact .inr ⟨_, rfl⟩
  generalize hta : Token.fromStr E a = ta at *
  generalize htb : Token.fromStr E b = tb at *
  unfold Token.concat
  cases Fa with
  | va h => exact absurd h hva
  | comment h => exact absurd (commentTryFrom_head h) (noComment L pa.chars)
  | punct h => exact absurd (by simpa using h) (pa.notPunct L [])
  | ident _ hia =>
    have hwb : IsWord E.xidContinue b := by
      rcases hj with h | h
      · exact h.2
      · exact absurd hia (number_notIdent L h.1)
    cases Fb with
    | va h => exact absurd h hvb
    | comment h => exact absurd (commentTryFrom_head h) (noComment L pb.chars)
    | punct h => exact absurd (by simpa using h) (pb.notPunct L [])
    | ident _ _ => exact ⟨_, rfl⟩
    | cont _ _ _ _ => exact ⟨_, rfl⟩
    | plain _ _ _ _ => exact ⟨_, rfl⟩
    | lit _ hl =>
      rcases hnum pb hl with ⟨f, rfl⟩ | ⟨n, rfl⟩
      · have hall : b.all E.xidContinue = true := by
          simpa using hwb.2
        have hid := (identTryFrom_noEscape E (noBackslash L hab) (a ++ b)).2
          ⟨rfl, isIdent_append L hia hwb.2⟩
        exact ⟨.ident (a ++ b), by simp only [Token.strip, concatCore, concatIdentLit, hall, if_true, hid]⟩
      · exact ⟨_, rfl⟩
  | cont _ _ _ _ =>
    cases Fb with
    | va h => exact absurd h hvb
    | comment h => exact absurd (commentTryFrom_head h) (noComment L pb.chars)
    | punct h => exact absurd (by simpa using h) (pb.notPunct L [])
    | _ => exact ⟨_, rfl⟩
  | plain _ _ _ _ =>
    cases Fb with
    | va h => exact absurd h hvb
    | comment h => exact absurd (commentTryFrom_head h) (noComment L pb.chars)
    | punct h => exact absurd (by simpa using h) (pb.notPunct L [])
    | _ => exact ⟨_, rfl⟩
  | lit _ hl =>
    rcases hnum pa hl with ⟨f, rfl⟩ | ⟨n, rfl⟩
    all_goals
      cases Fb with
      | va h => exact absurd h hvb
      | comment h => exact absurd (commentTryFrom_head h) (noComment L pb.chars)
      | punct h => exact absurd (by simpa using h) (pb.notPunct L [])
      | _ => exact ⟨_, rfl⟩

/-! ## Carrying out `##` -/

/-- The model's token. -/
def pelemTok (E : Env) : PElem → Token
  | .tok i => tokOf E i
  | .paste => .punct c!"##"
  | .mark => .placemarker

/-- The token is not a marked name. -/
def Unmarked (i : Item) : Prop := ∀ id, i ≠ .name id true

/-- Tokens next to `##` are not marked; the flag says that `##` stands before the list. -/
def Edges : Bool → List PElem → Prop
  | _, [] => True
  | _, .paste :: es => Edges true es
  | _, .mark :: es => Edges false es
  | a, .tok i :: es => ((a = true ∨ es.head? = some .paste) → Unmarked i) ∧ Edges false es

theorem unmarked_item (s : Str) : Unmarked (Spec.item (nameOf E) s) := by
  unfold Spec.item
  split <;> intro id h <;> simp at h

theorem okItem_joined (L : E.Lawful) {a b : Str} (h : Joins E.xidContinue a b) :
    OkItem E (Spec.item (nameOf E) (a ++ b)) := by
  obtain ⟨⟨_, _, hv⟩, hj⟩ := h
  have pa : PastePiece E a := by
    rcases hj with h | h
    · exact .inl h.1
    · exact .inr h.1
  have pb : PastePiece E b := by
    rcases hj with h | h
    · exact .inl h.2
    · exact h.2
  have hab : ∀ c ∈ a ++ b, NumChar E c := by
    intro c hc
    rcases List.mem_append.1 hc with hc | hc
    · exact pa.chars c hc
    · exact pb.chars c hc
  have hh : '#' ∉ a ++ b := fun hm =>
    numChar_ne L (hab _ hm) (d := '#') (by decide) (by decide) (by decide) (by decide) (by decide) rfl
  exact okItem_item hv (fun hp => noBackslash L hab (hp.subset (by decide)))
    (fun hp => noBackslash L hab (hp.subset (by decide))) (fun he => hh (by rw [he]; simp))
    (fun he => hh (by rw [he]; simp))

theorem spelledAs_tok {i : Item} {s : Str} (h : SpelledAs (nameOf E) i s) :
    (tokOf E i).strip = (Token.fromStr E s).strip := by
  rcases h with ⟨p, rfl, hn⟩ | rfl
  · have := nameOf_fromStr hn
    rw [this]
    cases p <;> rfl
  · rfl

theorem joins_notComment (L : E.Lawful) {a : Str} (h : PastePiece E a) (c : Str) :
    Token.fromStr E a ≠ .comment c := by
  intro he
  have := fromStr_spec (E := E) (noBackslash L h.chars)
  rw [he] at this
  cases this with
  | comment h' => exact noComment L h.chars (commentTryFrom_head h')

theorem spelledAs_notComment (L : E.Lawful) {i : Item} {s : Str} (h : SpelledAs (nameOf E) i s)
    (hp : PastePiece E s) (c : Str) : tokOf E i ≠ .comment c := by
  rcases h with ⟨p, rfl, hn⟩ | rfl
  · cases p <;> simp [tokIn]
  · exact joins_notComment L hp c

theorem notComment_tok {i : Item} (h : NotComment i) (c : Str) : tokOf E i ≠ .comment c := by
  cases i with
  | name id p => cases p <;> simp [tokIn]
  | other s =>
    intro he
    have he : Token.fromStr E s = .comment c := he
    apply h s rfl
    unfold Token.fromStr at he
    repeat' split at he
    all_goals first | (simp at he; done) | skip
    rename_i hct
    exact commentTryFrom_head hct

theorem popNonComment_cons {t : Token} (h : ∀ c, t ≠ .comment c) (ts : List Token) :
    popNonComment (t :: ts) = some (t, ts) := by
  cases t with
  | comment c => exact absurd rfl (h c)
  | _ => rfl

theorem concatGo_push {n : Nat} {t : Token} (h : t ≠ .punct c!"##") (out rest : List Token) :
    expandConcatGo E (n + 1) out (t :: rest) = expandConcatGo E n (t :: out) rest := by
  rw [expandConcatGo, if_neg (fun hc => h hc.1)]

/-- One `##` between two tokens. -/
theorem concatGo_join {n : Nat} {l r t : Token} (hl : ∀ c, l ≠ .comment c) (hr : ∀ c, r ≠ .comment c)
    (hla : l.isArg = false) (hra : r.isArg = false) (hlp : l ≠ .punct c!"##")
    (hrp : r ≠ .punct c!"##") (ht : t ≠ .punct c!"##") (hc : l.concat E r = .ok t)
    (out rest : List Token) :
    expandConcatGo E (n + 2) out (l :: .punct c!"##" :: r :: rest) =
      expandConcatGo E (n + 1) out (t :: rest) := by
  rw [concatGo_push hlp, concatGo_push ht, expandConcatGo, if_pos ⟨rfl, by simp [hla], by simp [hra]⟩,
    popNonComment_cons hl]
  simp only
  rw [if_neg (by simpa using hrp), popNonComment_cons hr]
  simp only [hc]

theorem okItem_ne {i : Item} (h : OkItem E i) : tokOf E i ≠ .punct c!"##" ∧ (tokOf E i).isArg = false :=
  ⟨tokOf_ne_paste h, tokOf_isArg h⟩

theorem unmarked_strip {i : Item} (h : Unmarked i) : (tokOf E i).strip = tokOf E i := by
  cases i with
  | name id p =>
    cases p with
    | true => exact absurd rfl (h id)
    | false => rfl
  | other s =>
    show (Token.fromStr E s).strip = Token.fromStr E s
    cases hs : Token.fromStr E s with
    | nonRepl t => exact absurd hs (fromStr_ne_nonRepl E s t)
    | _ => rfl

theorem concat_mark_left {i : Item} (h : Unmarked i) :
    Token.placemarker.concat E (tokOf E i) = .ok (tokOf E i) := by
  unfold Token.concat
  rw [unmarked_strip h]
  rfl

theorem concat_mark_right {i : Item} (h : Unmarked i) :
    (tokOf E i).concat E .placemarker = .ok (tokOf E i) := by
  unfold Token.concat
  rw [unmarked_strip h]
  cases ht : tokOf E i <;> rfl

/-- **`expand_concat` carries out every `##`.** -/
theorem pastes_concat (L : E.Lawful) {es : List PElem} {out : List Item}
    (h : Pastes (nameOf E) E.xidContinue es out) : ∀ (a : Bool),
    (∀ i, PElem.tok i ∈ es → OkItem E i) → Edges a es → ∀ (n : Nat) (o : List Token), es.length < n →
    OkItems E out ∧ ∃ X, expandConcatGo E n o (es.map (pelemTok E)) = .ok (o.reverse ++ X) ∧
      removePlacemarkers X = out.map (tokOf E) := by
  induction h with
  | nil =>
    intro a _ _ n o hn
    obtain ⟨n, rfl⟩ : ∃ m, n = m + 1 := ⟨n - 1, by simp at hn; omega⟩
    exact ⟨(fun _ h => nomatch h), [], by simp [expandConcatGo], rfl⟩
  | @tok i es out _ _ ih =>
    intro a hok he n o hn
    obtain ⟨n, rfl⟩ : ∃ m, n = m + 1 := ⟨n - 1, by simp at hn; omega⟩
    have hi := hok i List.mem_cons_self
    obtain ⟨h1, X, h2, h3⟩ := ih false (fun j hj => hok j (List.mem_cons_of_mem _ hj)) he.2 n
      (tokOf E i :: o) (by simpa using hn)
    refine ⟨.cons hi h1, tokOf E i :: X, ?_, ?_⟩
    · rw [List.map_cons, pelemTok, concatGo_push (okItem_ne hi).1, h2]
      simp
    · have := tokOf_ne_placemarker (ps := (.none : Params E)) i
      unfold removePlacemarkers at h3 ⊢
      rw [List.filter_cons_of_pos (by simpa using this), h3]
      rfl
  | @mark es out _ _ ih =>
    intro a hok he n o hn
    obtain ⟨n, rfl⟩ : ∃ m, n = m + 1 := ⟨n - 1, by simp at hn; omega⟩
    obtain ⟨h1, X, h2, h3⟩ := ih false (fun j hj => hok j (List.mem_cons_of_mem _ hj)) he n
      (.placemarker :: o) (by simpa using hn)
    refine ⟨h1, .placemarker :: X, ?_, ?_⟩
    · rw [List.map_cons, pelemTok, concatGo_push (by simp), h2]
      simp
    · unfold removePlacemarkers at h3 ⊢
      rw [List.filter_cons_of_neg (by simp), h3]
  | @join i j x y es out hx hy hj _ ih =>
    intro a hok he n o hn
    obtain ⟨n, rfl⟩ : ∃ m, n = m + 2 := ⟨n - 2, by simp at hn; omega⟩
    have hi := okItem_ne (hok i (by simp))
    have hjj := okItem_ne (hok j (by simp))
    have hnew := okItem_joined L hj
    have px : PastePiece E x := by
      rcases hj.2 with h | h
      · exact .inl h.1
      · exact .inr h.1
    have py : PastePiece E y := by
      rcases hj.2 with h | h
      · exact .inl h.2
      · exact h.2
    have hes : Edges false es := he.2.2
    have hcon : (tokOf E i).concat E (tokOf E j) = .ok (tokOf E (Spec.item (nameOf E) (x ++ y))) := by
      have := joins_concat L hj
      unfold Token.concat at this ⊢
      rw [spelledAs_tok hx, spelledAs_tok hy, this]
      exact congrArg _ (tokOf_item _).symm
    obtain ⟨h1, X, h2, h3⟩ := ih a (by
        intro k hk
        rcases List.mem_cons.1 hk with hk | hk
        · simp only [PElem.tok.injEq] at hk; rw [hk]; exact hnew
        · exact hok k (by simp [hk]))
      ⟨fun _ => unmarked_item _, hes⟩ (n + 1) o (by simp at hn ⊢; omega)
    refine ⟨h1, X, ?_, h3⟩
    rw [← h2]
    simp only [List.map_cons, pelemTok]
    exact concatGo_join (spelledAs_notComment L hx px) (spelledAs_notComment L hy py) hi.2 hjj.2
      hi.1 hjj.1 (okItem_ne hnew).1 hcon _ _
  | @markLeft j es out hnc _ ih =>
    intro a hok he n o hn
    obtain ⟨n, rfl⟩ : ∃ m, n = m + 2 := ⟨n - 2, by simp at hn; omega⟩
    have hjj := okItem_ne (hok j (by simp))
    have hu : Unmarked j := he.1 (.inl rfl)
    obtain ⟨h1, X, h2, h3⟩ := ih a (fun k hk => hok k (by simp at hk ⊢; exact hk))
      ⟨fun _ => hu, he.2⟩ (n + 1) o (by simp at hn ⊢; omega)
    refine ⟨h1, X, ?_, h3⟩
    rw [← h2]
    simp only [List.map_cons, pelemTok]
    exact concatGo_join (by simp) (notComment_tok hnc) rfl hjj.2 (by simp) hjj.1 hjj.1
      (concat_mark_left hu) _ _
  | @markRight i es out hnc _ ih =>
    intro a hok he n o hn
    obtain ⟨n, rfl⟩ : ∃ m, n = m + 2 := ⟨n - 2, by simp at hn; omega⟩
    have hi := okItem_ne (hok i (by simp))
    have hu : Unmarked i := he.1 (.inr rfl)
    obtain ⟨h1, X, h2, h3⟩ := ih a (fun k hk => hok k (by simp at hk ⊢; exact hk))
      ⟨fun _ => hu, he.2⟩ (n + 1) o (by simp at hn ⊢; omega)
    refine ⟨h1, X, ?_, h3⟩
    rw [← h2]
    simp only [List.map_cons, pelemTok]
    exact concatGo_join (notComment_tok hnc) (by simp) hi.2 rfl hi.1 (by simp) hi.1
      (concat_mark_right hu) _ _
  | @markBoth es out _ ih =>
    intro a hok he n o hn
    obtain ⟨n, rfl⟩ : ∃ m, n = m + 2 := ⟨n - 2, by simp at hn; omega⟩
    obtain ⟨h1, X, h2, h3⟩ := ih a (fun k hk => hok k (by simp at hk ⊢; exact hk)) he
      (n + 1) o (by simp at hn ⊢; omega)
    refine ⟨h1, X, ?_, h3⟩
    rw [← h2]
    simp only [List.map_cons, pelemTok]
    exact concatGo_join (by simp) (by simp) rfl rfl (by simp) (by simp) (by simp) rfl _ _

theorem pastes_expandConcat (L : E.Lawful) {es : List PElem} {out : List Item}
    (h : Pastes (nameOf E) E.xidContinue es out) (hok : ∀ i, PElem.tok i ∈ es → OkItem E i)
    (he : Edges false es) :
    OkItems E out ∧ ∃ X, expandConcat E (es.map (pelemTok E)) = .ok X ∧
      removePlacemarkers X = out.map (tokOf E) := by
  obtain ⟨h1, X, h2, h3⟩ := pastes_concat L h false hok he (es.length + 1) [] (Nat.lt_succ_self _)
  exact ⟨h1, X, by simpa [expandConcat] using h2, h3⟩

/-! ## Substitution -/

/-- What `fillBody` puts in place of `s`, when it is not `##`. -/
theorem edges_toks {l : List Item} {es : List PElem} (h : es.head? ≠ some .paste)
    (he : Edges false es) : Edges false (l.map .tok ++ es) := by
  induction l with
  | nil => exact he
  | cons i l ih =>
    refine ⟨fun hc => ?_, ih⟩
    rcases hc with hc | hc
    · simp at hc
    · cases l with
      | nil => exact absurd hc h
      | cons j l => simp at hc

theorem edges_unmarked {l : List Item} {es : List PElem} (hl : l ≠ []) (hu : ∀ i ∈ l, Unmarked i)
    (a : Bool) (he : Edges false es) : Edges a (l.map .tok ++ es) := by
  induction l generalizing a with
  | nil => exact absurd rfl hl
  | cons i l ih =>
    refine ⟨fun _ => hu i List.mem_cons_self, ?_⟩
    cases l with
    | nil => exact he
    | cons j l => exact ih (by simp) (fun k hk => hu k (List.mem_cons_of_mem _ hk)) false

/-- The parameter spelled `s` next to `##`: what is wanted of it. -/
def OperandsOk (arg : Str → Option (List Item × List Item)) (after : Bool) (body : List Str) : Prop :=
  (∀ s a a', NextToPaste body s → arg s = some (a, a') → OperandKept a a') ∧
  (after = true → ∀ s a a', body.head? = some s → arg s = some (a, a') → OperandKept a a')

theorem OperandsOk.tail {arg : Str → Option (List Item × List Item)} {after : Bool} {s : Str}
    {body : List Str} (h : OperandsOk arg after (s :: body)) :
    OperandsOk arg (decide (s = c!"##")) body := by
  refine ⟨fun x a a' hx => h.1 x a a' ?_, fun hs x a a' hx => h.1 x a a' ?_⟩
  · rcases hx with hx | hx
    · exact .inl (hx.trans (List.infix_cons (List.infix_refl _)))
    · exact .inr (hx.trans (List.infix_cons (List.infix_refl _)))
  · have hs : s = c!"##" := by simpa using hs
    cases body with
    | nil => simp at hx
    | cons y ys =>
      simp only [List.head?_cons, Option.some.injEq] at hx
      subst hx; subst hs
      exact .inr ⟨[], ys, by simp⟩

theorem OperandsOk.here {arg : Str → Option (List Item × List Item)} {after : Bool} {s : Str}
    {body : List Str} (h : OperandsOk arg after (s :: body)) {a a' : List Item}
    (ha : arg s = some (a, a')) (hc : after = true ∨ body.head? = some c!"##") : OperandKept a a' := by
  rcases hc with hc | hc
  · exact h.2 hc s a a' rfl ha
  · refine h.1 s a a' (.inl ?_) ha
    cases body with
    | nil => simp at hc
    | cons y ys =>
      simp only [List.head?_cons, Option.some.injEq] at hc
      subst hc
      exact ⟨[], ys, by simp⟩

theorem fill_head {arg : Str → Option (List Item × List Item)} : ∀ (body : List Str) (after : Bool),
    (fillBody (nameOf E) arg after body).head? = some .paste → body.head? = some c!"##"
  | [], _, h => by simp [fillBody] at h
  | s :: body, after, h => by
    by_cases hs : s = c!"##"
    · simp [hs]
    · exfalso
      simp only [fillBody, if_neg hs] at h
      cases ha : arg s with
      | none => simp [ha] at h
      | some p =>
        obtain ⟨a, a'⟩ := p
        simp only [ha] at h
        split at h
        · unfold asOperand at h
          split at h
          · simp at h
          · cases a <;> simp_all
        · rename_i hc
          cases a' with
          | cons i l => simp at h
          | nil => exact hc (.inr (fill_head body false (by simpa using h)))

theorem edges_operand {a : List Item} {es : List PElem} (hu : ∀ id, Item.name id true ∉ a) (b : Bool)
    (he : Edges false es) : Edges b (asOperand a ++ es) := by
  unfold asOperand
  split
  · exact he
  · rename_i hne
    exact edges_unmarked hne (fun i hi id hid => hu id (hid ▸ hi)) b he

/-- The tokens next to `##` in the filled body are not marked. -/
theorem edges_fill {arg : Str → Option (List Item × List Item)} : ∀ (body : List Str) (after : Bool),
    OperandsOk arg after body → Edges after (fillBody (nameOf E) arg after body)
  | [], after, _ => by cases after <;> trivial
  | s :: body, after, h => by
    have ih := edges_fill body _ h.tail
    by_cases hs : s = c!"##"
    · have : (decide (s = c!"##")) = true := by simpa using hs
      rw [this] at ih
      simp only [fillBody, if_pos hs]
      exact ih
    · have : (decide (s = c!"##")) = false := by simpa using hs
      rw [this] at ih
      simp only [fillBody, if_neg hs]
      cases ha : arg s with
      | none =>
        exact ⟨fun _ => unmarked_item s, ih⟩
      | some p =>
        obtain ⟨a, a'⟩ := p
        simp only
        split
        · rename_i hc
          obtain ⟨_, hu⟩ := h.here ha (by simpa using hc)
          exact edges_operand hu after ih
        · rename_i hc
          simp only [Bool.not_eq_true, not_or] at hc
          rw [hc.1]
          exact edges_toks (fun hh => hc.2 (fill_head body false hh)) ih

theorem mem_asOperand {a : List Item} {i : Item} (h : PElem.tok i ∈ asOperand a) : i ∈ a := by
  unfold asOperand at h
  split at h
  · simp at h
  · simpa using h

/-- The tokens of a filled body. -/
theorem ok_fill {arg : Str → Option (List Item × List Item)}
    (ha : ∀ s a a', arg s = some (a, a') → OkItems E a ∧ OkItems E a') :
    ∀ (body : List Str) (after : Bool), (∀ s ∈ body, s = c!"##" ∨ Spec.PlainSpelling s) →
    (c!"__VA_ARGS__" ∈ body → arg c!"__VA_ARGS__" ≠ none) →
    ∀ i, PElem.tok i ∈ fillBody (nameOf E) arg after body → OkItem E i
  | [], _, _, _, i, h => by simp [fillBody] at h
  | s :: body, after, hb, hv, i, h => by
    have ih := fun after => ok_fill ha body after (fun x hx => hb x (List.mem_cons_of_mem _ hx))
      (fun hx => hv (List.mem_cons_of_mem _ hx)) i
    by_cases hs : s = c!"##"
    · simp only [fillBody, if_pos hs, List.mem_cons, reduceCtorEq, false_or] at h
      exact ih _ h
    · simp only [fillBody, if_neg hs, List.mem_append] at h
      rcases h with h | h
      · cases hg : arg s with
        | none =>
          simp only [hg, List.mem_singleton, PElem.tok.injEq] at h
          subst h
          refine PlainSpelling.item ((hb s List.mem_cons_self).resolve_left hs) ?_
          rintro rfl
          exact hv List.mem_cons_self hg
        | some p =>
          obtain ⟨a, a'⟩ := p
          obtain ⟨h1, h2⟩ := ha s a a' hg
          simp only [hg] at h
          split at h
          · exact h1 i (mem_asOperand h)
          · exact h2 i (by simpa using h)
      · exact ih _ h

theorem tokenize_fill_none (L : E.Lawful) : ∀ (body : List Str) (after : Bool),
    tokenize E [] body = (fillBody (nameOf E) (fun _ => none) after body).map (pelemTok E)
  | [], _ => rfl
  | s :: body, after => by
    have ih := tokenize_fill_none L body
    by_cases hs : s = c!"##"
    · subst hs
      simp only [fillBody, if_true, List.map_cons, pelemTok, ← ih true]
      simp [tokenize, tokenizeOne, fromStr_hashhash L]
    · simp only [fillBody, if_neg hs, List.map_append, List.map_cons, List.map_nil, ← ih false,
        pelemTok]
      rw [show tokOf E (Spec.item (nameOf E) s) = Token.fromStr E s from tokOf_item s]
      simp [tokenize, tokenizeOne]

/-- What the model does with a spelling in the body. -/
def ArgReads (E : Env) (rec : List Token → Res (List Token)) (names : List Token)
    (args : List (List Token)) (arg : Str → Option (List Item × List Item)) (s : Str) : Prop :=
  match arg s with
  | some (_, a') => (tokenizeOne E names s).isArg = true ∧ OkItems E a' ∧
      ∃ t, selectArg names args (tokenizeOne E names s) = .ok t ∧ rec t = .ok (a'.map (tokOf E))
  | none => tokenizeOne E names s = Token.fromStr E s ∧ (Token.fromStr E s).isArg = false

theorem isArg_punct {t : Token} (h : t.isArg = true) (p : Str) : t ≠ .punct p := by
  rintro rfl
  simp [Token.isArg] at h

/-- **`expand_arguments` fills the body.** -/
theorem expandArguments_fill (L : E.Lawful) {rec : List Token → Res (List Token)} {nested : Bool}
    {names : List Token} {args : List (List Token)}
    {arg : Str → Option (List Item × List Item)}
    (hpaste : tokenizeOne E names c!"##" = .punct c!"##") :
    ∀ (body : List Str) (after : Bool), OperandsOk arg after body →
    (∀ s ∈ body, s = c!"##" ∨ Spec.PlainSpelling s) →
    (∀ s ∈ body, s ≠ c!"##" → ArgReads E rec names args arg s) →
    ∀ out : List Token, (out.head? = some (.punct c!"##") ↔ after = true) →
      out.head? ≠ some (.punct c!"#") →
    expandArguments E rec nested names args out (tokenize E names body) =
      .ok (out.reverse ++ (fillBody (nameOf E) arg after body).map (pelemTok E))
  | [], _, _, _, _, out, _, _ => by simp [tokenize, expandArguments, fillBody]
  | s :: body, after, hR, hb, hr, out, ho, ho' => by
    have ih := expandArguments_fill L (rec := rec) (nested := nested) (names := names) (args := args)
      (arg := arg) hpaste body _ hR.tail (fun x hx => hb x (List.mem_cons_of_mem _ hx))
      (fun x hx => hr x (List.mem_cons_of_mem _ hx))
    have hrest : (tokenize E names body).head? = some (.punct c!"##") ↔
        body.head? = some c!"##" := by
      cases body with
      | nil => simp [tokenize]
      | cons x xs =>
        simp only [tokenize, List.map_cons, List.head?_cons, Option.some.injEq]
        constructor
        · intro hx
          rcases hb x (by simp) with h | h
          · exact h
          · by_cases hx' : x = c!"##"
            · exact hx'
            · have := hr x (by simp) hx'
              unfold ArgReads at this
              split at this
              · exact absurd hx (isArg_punct this.1 _)
              · rw [this.1] at hx
                exact absurd hx (PlainSpelling.ne_hash h).2
        · rintro rfl; exact hpaste
    simp only [tokenize, List.map_cons]
    rw [show (List.map (tokenizeOne E names) body) = tokenize E names body from rfl]
    by_cases hs : s = c!"##"
    · subst hs
      rw [hpaste, expandArguments, if_neg (by simp), if_neg (by simp [Token.isArg]),
        ih _ (by simp) (by simp)]
      simp [fillBody, pelemTok]
    · have hd : decide (s = c!"##") = false := by simpa using hs
      rw [hd] at ih
      have hplain := (hb s List.mem_cons_self).resolve_left hs
      have hread := hr s List.mem_cons_self hs
      cases hg : arg s with
      | none =>
        simp only [ArgReads, hg] at hread
        have hne := PlainSpelling.ne_hash (E := E) hplain
        rw [hread.1, expandArguments, if_neg hne.1, if_neg (by simp [hread.2]),
          ih _ (by simpa using hne.2) (by simpa using hne.1)]
        simp only [fillBody, if_neg hs, hg, List.map_append, List.map_cons, List.map_nil, pelemTok]
        rw [show tokOf E (Spec.item (nameOf E) s) = Token.fromStr E s from tokOf_item s]
        simp
      | some p =>
        obtain ⟨a, a'⟩ := p
        simp only [ArgReads, hg] at hread
        obtain ⟨harg, hok, t, hsel, hrec⟩ := hread
        have hplace : placeArg E rec nested out t (tokenize E names body) =
            .ok (((if after = true ∨ body.head? = some c!"##" then asOperand a
              else a'.map .tok).map (pelemTok E)).reverse ++ out) := by
          unfold placeArg
          split
          · exact absurd rfl ho'
          · rw [hrec]
            simp only [ho, hrest]
            by_cases hc : after = true ∨ body.head? = some c!"##"
            · obtain ⟨heq, _⟩ := hR.here hg hc
              subst heq
              rw [if_pos hc]
              unfold asOperand
              by_cases hn : a' = []
              · subst hn
                simp [hc, pelemTok]
              · rw [if_neg (by simp [hn]), if_neg hn]
                simp [pelemTok, Function.comp_def]
            · rw [if_neg (fun h => hc h.1), if_neg hc]
              simp [pelemTok, Function.comp_def]
        rw [expandArguments, if_neg (isArg_punct harg _), if_pos harg, hsel]
        simp only [hplace]
        have hhead : ∀ l : List PElem, (∀ i, PElem.tok i ∈ l → OkItem E i) → PElem.paste ∉ l →
            (after = true → l ≠ []) →
            (((l.map (pelemTok E)).reverse ++ out).head? = some (.punct c!"##") ↔ false = true) ∧
            ((l.map (pelemTok E)).reverse ++ out).head? ≠ some (.punct c!"#") := by
          intro l hl hp hn
          cases hl' : l.reverse with
          | nil =>
            have : l = [] := by simpa using hl'
            subst this
            cases after with
            | true => exact absurd rfl (hn rfl)
            | false => exact ⟨by simpa using ho, by simpa using ho'⟩
          | cons e es =>
            have hm : e ∈ l := by
              have : e ∈ l.reverse := by rw [hl']; simp
              simpa using this
            rw [← List.map_reverse, hl']
            simp only [List.map_cons, List.cons_append, List.head?_cons, Option.some.injEq]
            cases e with
            | tok i =>
              have := hl i hm
              exact ⟨by simpa [pelemTok] using tokOf_ne_paste this,
                by simpa [pelemTok] using tokOf_ne_hash this⟩
            | paste => exact absurd hm hp
            | mark => simp [pelemTok]
        obtain ⟨k1, k2⟩ := hhead (if after = true ∨ body.head? = some c!"##" then asOperand a
              else a'.map .tok) (by
            intro i hi
            split at hi
            · rename_i hc
              obtain ⟨heq, _⟩ := hR.here hg hc
              subst heq
              exact hok i (mem_asOperand hi)
            · exact hok i (by simpa using hi)) (by
            intro hi
            split at hi
            · unfold asOperand at hi; split at hi <;> simp at hi
            · simp at hi) (by
            intro hc
            rw [if_pos (.inl hc)]
            unfold asOperand
            split
            · simp
            · rename_i hn; simpa using hn)
        rw [ih _ k1 k2]
        simp only [fillBody, if_neg hs, hg]
        simp

/-! ## The main induction -/

theorem tokenizeOne_hashhash (L : E.Lawful) {named : List Str} {tail : List Token}
    (htail : tail = [] ∨ tail = [.punct c!"..."]) (hn : ∀ p ∈ named, nameOf E p = some p) :
    tokenizeOne E (named.map Token.ident ++ tail) c!"##" = .punct c!"##" := by
  rw [tokenizeOne_params _ _ _ htail, paramIndex_none.2, fromStr_hashhash L]
  intro hm
  have := nameOf_fromStr (hn _ hm)
  rw [fromStr_hashhash L] at this
  simp at this

/-- One call of a function-like macro in the model. -/
theorem pasteCall_step (L : E.Lawful) {S : List Str} {id : Str} {params body : List Str}
    {named : List Str} {tail : List Token}
    (htail : tail = [] ∨ tail = [.punct c!"..."])
    (hid : id ∉ S) (hfn : ms.fn.get id = some (params, body))
    (hnames : tokenizeArgNames E params = .ok (named.map Token.ident ++ tail))
    (hnd : named.Nodup) (hnd' : c!"..." ∉ named) (hn : ∀ p ∈ named, nameOf E p = some p)
    {args : List (List Item)} {arg : Str → Option (List Item × List Item)}
    {ts rest mid b : List Item} (hcall : Call args ts rest) (hts : OkItems E ts)
    (hb : ∀ s ∈ body, s = c!"##" ∨ Spec.PlainSpelling s)
    (hbv : c!"__VA_ARGS__" ∈ body → tail = [.punct c!"..."])
    (har : tail = [] → Spec.ArityOk named args)
    (ha : ∀ s a a', arg s = some (a, a') → OkItems E a ∧ OkItems E a')
    (hav : c!"__VA_ARGS__" ∈ body → arg c!"__VA_ARGS__" ≠ none)
    (hR : ∀ s a a', NextToPaste body s → arg s = some (a, a') → OperandKept a a')
    (hread : ∃ N, ∀ n, N ≤ n → ∀ s ∈ body, s ≠ c!"##" →
      ArgReads E (expandMacroBody E ms n S) (named.map Token.ident ++ tail)
        (args.map (List.map (tokOf E))) arg s)
    (hmid : Pastes (nameOf E) E.xidContinue (fillBody (nameOf E) arg false body) mid)
    (hbody : OkItems E mid → ∃ N, ∀ n, N ≤ n → expandMacroBody E ms n (setInsert S id)
      (mid.map (tokOf E)) = .ok (b.map (tokOf E))) :
    ∀ pre, InertTok ms S pre → ∃ N, ∀ n, N ≤ n →
      expandMacroBody E ms (n + 1) S (pre ++ (Item.name id false :: ts).map (tokOf E)) =
        expandMacroBody E ms n S (pre ++ b.map (tokOf E) ++ rest.map (tokOf E)) := by
  intro pre hpre
  obtain ⟨hhead, hcol⟩ := collectArgs_call L hcall hts
  have hscan : scan ms S (pre ++ (Item.name id false :: ts).map (tokOf E)) =
      .fnCall pre id params body (args.map (List.map (tokOf E))) (rest.map (tokOf E)) := by
    rw [scan_inert hpre]
    have : fnCallAt ms id (ts.map (tokOf E)) =
        some ((params, body), args.map (List.map (tokOf E)), rest.map (tokOf E)) := by
      simp only [fnCallAt, hhead, if_true, hfn, hcol, Option.map_some]
    simp only [List.map_cons, tokIn, scan, if_neg hid, this]
    rw [pushAll_fnCall]; simp
  have hops : OperandsOk arg false body := ⟨hR, by simp⟩
  obtain ⟨hmok, X, hX, hXm⟩ := pastes_expandConcat L hmid (ok_fill ha body false hb hav)
    (edges_fill body false hops)
  obtain ⟨N1, h1⟩ := hread
  obtain ⟨N3, h3⟩ := hbody hmok
  refine ⟨max N1 N3, fun n hn' => ?_⟩
  have hexp := expandArguments_fill L (rec := expandMacroBody E ms n S)
    (nested := decide (S.length > 1)) (names := named.map Token.ident ++ tail)
    (args := args.map (List.map (tokOf E))) (arg := arg) (tokenizeOne_hashhash L htail hn) body false
    hops hb (h1 n (by omega)) [] (by simp) (by simp)
  have hfnb : expandFnMacroBody E (expandMacroBody E ms n) S id (named.map Token.ident ++ tail)
      (some (args.map (List.map (tokOf E))))
      (tokenize E (named.map Token.ident ++ tail) body) = .ok (b.map (tokOf E)) := by
    unfold expandFnMacroBody
    simp only [filter_notComment _ _ htail]
    have hvb : isVariadic (named.map Token.ident ++ tail) = false → tail = [] := by
      rcases htail with h | h
      · exact fun _ => h
      · intro hc; subst h; simp [isVariadic] at hc
    rw [if_neg, if_neg, filterMap_paramName, firstDuplicate_none]
    · simp only [hexp, List.reverse_nil, List.nil_append, hX, hXm]
      exact h3 n (by omega)
    · rcases htail with rfl | rfl
      · simpa using hnd
      · simp only [List.filterMap_cons, Token.paramName, List.filterMap_nil]
        rw [List.nodup_append]
        refine ⟨hnd, by simp, fun a ha' b hb' hab => ?_⟩
        simp only [List.mem_singleton] at hb'
        exact hnd' (hb' ▸ hab ▸ ha')
    · intro hc
      simp only [Bool.and_eq_true, Bool.not_eq_true', Option.map_some, Option.getD_some] at hc
      have ht := hvb hc.1
      have := har ht
      subst ht
      rcases this with h | ⟨h, h'⟩
      · simp [arityMismatch, h] at hc
      · subst h; subst h'; simp [arityMismatch] at hc
    · intro hc
      simp only [Bool.and_eq_true, Bool.not_eq_true'] at hc
      have ht := hvb hc.1
      have hnv : c!"__VA_ARGS__" ∉ body := by
        intro hm
        have := hbv hm
        rw [ht] at this
        simp at this
      rw [containsVarArgs_false htail hnv] at hc
      simp at hc
  rw [expandMacroBody, hscan]
  simp only [hnames, hfnb]

theorem getD_ok {l : List (List Item)} (h : ∀ a ∈ l, OkItems E a) (i : Nat) :
    OkItems E (l.getD i []) := by
  rw [List.getD_eq_getElem?_getD]
  cases hg : l[i]? with
  | none => exact fun _ h => nomatch h
  | some a => simpa using h a (List.mem_of_getElem? hg)

/-- The textbook relation with `##` is what the model computes. -/
theorem replaces_good (L : E.Lawful) {D : Table} (hD : Agrees ms D)
    (hP : Spec.PlainPaste (nameOf E) D) {H : List Str} {ts out : List Item}
    (h : Replaces OperandKept (nameOf E) E.xidContinue D H ts out) :
    Good (.none : Params E) ms D H ts out := by
  refine Replaces.rec (motive_1 := fun H ts out _ => Good (.none : Params E) ms D H ts out)
    (motive_2 := fun H as as' _ => GoodAll (.none : Params E) ms D H as as')
    ?nil ?other ?painted ?hidden ?undefined ?object ?call ?callV ?anil ?acons h
  case nil =>
    intro H S _ _
    refine ⟨(fun _ h => nomatch h), (fun _ h => nomatch h), fun pre hpre => ⟨1, fun n hn => ?_⟩⟩
    obtain ⟨n, rfl⟩ : ∃ m, n = m + 1 := ⟨n - 1, by omega⟩
    rw [expandMacroBody, scan_inert hpre]
    simp [scan, pushAll_done]
  case other =>
    intro H s ts out _ ih S hS hok
    obtain ⟨h1, h2, h3⟩ := ih S hS hok.tail
    have hs := hok _ List.mem_cons_self
    refine ⟨.cons hs h1, ?_, h3.cons (fun _ => rfl) ?_⟩
    · intro id hid
      rcases List.mem_cons.1 hid with h | h
      · exact absurd h (by simp)
      · exact h2 id h
    · intro id hid
      simp only [List.mem_singleton] at hid
      exact absurd hid.symm (hs.1 id)
  case painted =>
    intro H id ts out _ ih S hS hok
    obtain ⟨h1, h2, h3⟩ := ih S hS hok.tail
    refine ⟨.cons (hok _ List.mem_cons_self) h1, ?_, h3.cons (fun _ => rfl) ?_⟩
    · intro id hid
      rcases List.mem_cons.1 hid with h | h
      · exact absurd h (by simp)
      · exact h2 id h
    · intro id hid
      simp [tokIn] at hid
  case hidden =>
    intro H id ts out hid _ ih S hS hok
    obtain ⟨h1, h2, h3⟩ := ih S hS hok.tail
    have hne : id ≠ [] := hok _ List.mem_cons_self
    refine ⟨.cons (show OkItem E (.name id true) from hne) h1, ?_, h3.cons ?_ ?_⟩
    · intro id hid
      rcases List.mem_cons.1 hid with h | h
      · exact absurd h (by simp)
      · exact h2 id h
    · intro rest
      exact scan_congr_head ((hS id hne).2 hid) rest
    · intro id hid
      simp [tokIn] at hid
  case undefined =>
    intro H id ts out hid hdef _ ih S hS hok
    obtain ⟨h1, h2, h3⟩ := ih S hS hok.tail
    have hne : id ≠ [] := hok _ List.mem_cons_self
    refine ⟨.cons (hok _ List.mem_cons_self) h1, ?_, h3.cons (fun _ => rfl) ?_⟩
    · intro i hi
      rcases List.mem_cons.1 hi with h | h
      · simp only [Item.name.injEq, and_true] at h
        subst h
        exact ⟨hid, hdef⟩
      · exact h2 i h
    · intro i hi
      simp only [tokIn, List.mem_singleton, Token.ident.injEq] at hi
      subst hi
      refine ⟨fun hc => hid ((hS _ hne).1 hc), ?_, ?_⟩
      · rw [(hD i).2, hdef]
      · rw [(hD i).1, hdef]
  case object =>
    intro H id body mid b ts out hid hdef hmid _ _ ihb ih S hS hok
    obtain ⟨h1, h2, h3⟩ := ih S hS hok.tail
    have hne : id ≠ [] := hok _ List.mem_cons_self
    obtain ⟨hpl, hnva⟩ := hP.var id body hdef
    obtain ⟨hbok, X, hX, hXm⟩ := pastes_expandConcat L hmid
      (ok_fill (by simp) body false hpl (fun hx => absurd hx hnva))
      (edges_fill body false ⟨by simp, by simp⟩)
    obtain ⟨g1, g2, g3⟩ := ihb _ (hS.insert id) hbok
    refine ⟨g1.append h1, g2.mono.append h2, ?_⟩
    refine Runs.replace (b := b) (g2.mono.inert hD hS g1) h3 ?_
    intro pre hpre
    obtain ⟨N, hN⟩ := g3.nil_pre
    refine ⟨N, fun n hn => ?_⟩
    have hscan : scan ms S (pre ++ (Item.name id false :: ts).map (tokOf E)) =
        .varRef pre id body (ts.map (tokOf E)) := by
      rw [scan_inert hpre]
      have hf : ms.fn.get id = none := by rw [(hD id).2, hdef]
      have hv : ms.var.get id = some body := by rw [(hD id).1, hdef]
      simp only [List.map_cons, tokIn, scan, if_neg (fun hc => hid ((hS id hne).1 hc)),
        fnCallAt_none hf, hv]
      rw [pushAll_varRef]; simp
    have hvb : expandVarMacroBody E (expandMacroBody E ms n) S id (tokenize E [] body) =
        .ok (b.map (tokOf E)) := by
      unfold expandVarMacroBody
      have := containsVarArgs_false (E := E) (params := []) (tail := []) (.inl rfl) hnva
      simp only [List.map_nil, List.append_nil] at this
      rw [this, tokenize_fill_none L body false, hX]
      simp only [Bool.false_eq_true, if_false, hXm]
      exact hN n hn
    rw [expandMacroBody, hscan]
    simp only [hvb]
  case call =>
    intro H id params body args args' mid b ts rest out hid hdef hell hcall har _ hR hmid _ _ iha ihb
      ih S hS hok
    have hne : id ≠ [] := hok _ List.mem_cons_self
    obtain ⟨hoka, hokr⟩ := OkIns.call hcall hok.tail
    obtain ⟨h1, h2, h3⟩ := ih S hS hokr
    obtain ⟨hlen, hoka', N, hN⟩ := iha S hS hoka
    obtain ⟨hpl, hnva, named, hpar, hnd, hnm⟩ := hP.fn id params body hdef
    have hpar : params = named := by
      rcases hpar with h | h
      · exact h
      · exact absurd (by simp [h]) hell
    subst hpar
    have hnva : c!"__VA_ARGS__" ∉ body := fun h => hell (hnva h)
    have ha : ∀ s a a', argumentOf params args args' none s = some (a, a') →
        OkItems E a ∧ OkItems E a' := by
      intro s a a' hs
      unfold argumentOf at hs
      split at hs
      · simp only [Option.some.injEq, Prod.mk.injEq] at hs
        obtain ⟨rfl, rfl⟩ := hs
        exact ⟨getD_ok hoka _, getD_ok hoka' _⟩
      · simp at hs
    obtain ⟨hbok, -⟩ := pastes_expandConcat L hmid
      (ok_fill ha body false hpl (fun hx => absurd hx hnva)) (edges_fill body false ⟨hR, by simp⟩)
    obtain ⟨g1, g2, g3⟩ := ihb _ (hS.insert id) hbok
    refine ⟨g1.append h1, g2.mono.append h2, ?_⟩
    refine Runs.replace (b := b) (g2.mono.inert hD hS g1) h3 ?_
    refine pasteCall_step L (tail := []) (.inl rfl) (fun hc => hid ((hS id hne).1 hc))
      (by rw [(hD id).2, hdef]) (tokenizeArgNames_named hnd (fun p hp => (hnm p hp).1)) hnd hell
      (fun p hp => (hnm p hp).1) (args := args) hcall hok.tail hpl
      (fun h => absurd h hnva) (fun _ => har) ha (fun h => absurd h hnva) hR ⟨N, ?_⟩ hmid
      (fun _ => g3.nil_pre)
    intro n hn s hs hs'
    unfold ArgReads argumentOf
    rw [tokenizeOne_params _ _ _ (.inl rfl)]
    cases hi : Spec.paramIndex params s with
    | some i =>
      have hlt := (paramIndex_lt hi).1
      have hlt' : i < args.length := by
        rcases har with h | ⟨h, _⟩
        · omega
        · subst h; simp at hlt
      refine ⟨rfl, getD_ok hoka' i, args[i].map (tokOf E), by simp [selectArg, hlt'], ?_⟩
      exact hN n hn i args[i] (by simp [hlt'])
    | none =>
      have hsv : s ≠ c!"__VA_ARGS__" := fun h => hnva (h ▸ hs)
      simp only [if_neg hsv, true_and]
      cases hg : (Token.fromStr E s).isArg with
      | false => rfl
      | true => exact absurd (fromStr_isArg.1 hg) hsv
  case callV =>
    intro H id params body args args' va mid b ts rest out hid hdef hell hcall hlen _ _ hR hmid _ _
      iha ihva ihb ih S hS hok
    have hne : id ≠ [] := hok _ List.mem_cons_self
    obtain ⟨hoka, hokr⟩ := OkIns.call hcall hok.tail
    obtain ⟨h1, h2, h3⟩ := ih S hS hokr
    obtain ⟨hlen', hoka', N, hN⟩ := iha S hS (fun a ha => hoka a (List.mem_of_mem_take ha))
    have hokj : OkItems E (Spec.commaJoin (args.drop params.length)) := by
      intro t ht
      have : ∀ as : List (List Item), (∀ a ∈ as, OkItems E a) → OkItem E (.other c!",") →
          OkItems E (Spec.commaJoin as) := by
        intro as
        induction as with
        | nil => intro _ _ _ h; nomatch h
        | cons a as ih =>
          intro h hc
          cases as with
          | nil => exact h a List.mem_cons_self
          | cons b bs =>
            exact (h a List.mem_cons_self).append (.cons hc
              (ih (fun x hx => h x (List.mem_cons_of_mem _ hx)) hc))
      refine this _ (fun a ha => hoka a (List.mem_of_mem_drop ha)) ?_ t ht
      have hcomma : tokOf E (.other c!",") = .punct c!"," := tokIn_punct (fromStr_bracket L (by simp))
      refine ⟨by simp [hcomma], by simp [hcomma, Token.isArg], ?_, by simp, by simp⟩
      intro p hp
      exact (Token.punct.inj (hcomma.symm.trans hp)).symm
    obtain ⟨v1, _, v3⟩ := ihva S hS hokj
    obtain ⟨M, hM⟩ := v3.nil_pre
    obtain ⟨hpl, hnva, named, hpar, hnd, hnm⟩ := hP.fn id _ body hdef
    have hpar : params = named := by
      rcases hpar with h | h
      · have := (hnm c!"..." (by rw [← h]; simp)).2
        exact absurd rfl this
      · exact List.append_cancel_right h
    subst hpar
    have ha : ∀ s a a', argumentOf params args args'
        (some (Spec.commaJoin (args.drop params.length), va)) s = some (a, a') →
        OkItems E a ∧ OkItems E a' := by
      intro s a a' hs
      unfold argumentOf at hs
      split at hs
      · simp only [Option.some.injEq, Prod.mk.injEq] at hs
        obtain ⟨rfl, rfl⟩ := hs
        exact ⟨getD_ok hoka _, getD_ok hoka' _⟩
      · split at hs
        · simp only [Option.some.injEq, Prod.mk.injEq] at hs
          obtain ⟨rfl, rfl⟩ := hs
          exact ⟨hokj, v1⟩
        · simp at hs
    have hav : argumentOf params args args'
        (some (Spec.commaJoin (args.drop params.length), va)) c!"__VA_ARGS__" ≠ none := by
      unfold argumentOf
      split <;> simp
    obtain ⟨hbok, -⟩ := pastes_expandConcat L hmid
      (ok_fill ha body false hpl (fun _ => hav)) (edges_fill body false ⟨hR, by simp⟩)
    obtain ⟨g1, g2, g3⟩ := ihb _ (hS.insert id) hbok
    refine ⟨g1.append h1, g2.mono.append h2, ?_⟩
    refine Runs.replace (b := b) (g2.mono.inert hD hS g1) h3 ?_
    refine pasteCall_step L (tail := [.punct c!"..."]) (.inr rfl) (fun hc => hid ((hS id hne).1 hc))
      (by rw [(hD id).2, hdef]) (tokenizeArgNames_variadic L hnd (fun p hp => (hnm p hp).1)) hnd hell
      (fun p hp => (hnm p hp).1) (args := args) hcall hok.tail hpl
      (fun _ => rfl) (by simp) ha (fun _ => hav) hR ⟨max N M, ?_⟩ hmid (fun _ => g3.nil_pre)
    intro n hn s hs hs'
    unfold ArgReads argumentOf
    rw [tokenizeOne_params _ _ _ (.inr rfl)]
    cases hi : Spec.paramIndex params s with
    | some i =>
      have hlt := (paramIndex_lt hi).1
      have hlt' : i < args.length := by omega
      refine ⟨rfl, getD_ok hoka' i, args[i].map (tokOf E), by simp [selectArg, hlt'], ?_⟩
      exact hN n (by omega) i args[i] (by simp [hlt', hlt])
    | none =>
      by_cases hsv : s = c!"__VA_ARGS__"
      · subst hsv
        simp only [if_true, fromStr_varArgs.2 rfl]
        refine ⟨rfl, v1, (Spec.commaJoin (args.drop params.length)).map (tokOf E), ?_,
          hM n (by omega)⟩
        simp only [selectArg, List.length_append, List.length_map, List.length_cons, List.length_nil]
        rw [if_neg (by omega), ← joinArgs_tok L]
        simp
      · simp only [if_neg hsv, true_and]
        cases hg : (Token.fromStr E s).isArg with
        | false => rfl
        | true => exact absurd (fromStr_isArg.1 hg) hsv
  case anil =>
    intro H S _ _
    refine ⟨rfl, by simp, 0, ?_⟩
    intro n _ i a h
    simp at h
  case acons =>
    intro H a a' as as' _ _ iha ihas S hS hok
    obtain ⟨h1, _, h3⟩ := iha S hS (hok a List.mem_cons_self)
    obtain ⟨g1, g2, N, hN⟩ := ihas S hS (fun x hx => hok x (List.mem_cons_of_mem _ hx))
    obtain ⟨M, hM⟩ := h3.nil_pre
    refine ⟨by simp [g1], ?_, max N M, ?_⟩
    · intro x hx
      rcases List.mem_cons.1 hx with rfl | hx
      · exact h1
      · exact g2 x hx
    · intro n hn i x hx
      cases i with
      | zero =>
        simp only [List.getElem?_cons_zero, Option.some.injEq] at hx
        subst hx
        simpa using hM n (by omega)
      | succ i =>
        simp only [List.getElem?_cons_succ] at hx
        simpa using hN n (by omega) i x hx

/-! ## The entry points -/

/-- Text that may contain `##`, but not `#` or `__VA_ARGS__`. -/
def PasteInput (body : List Str) : Prop :=
  (∀ s ∈ body, s = c!"##" ∨ Spec.PlainSpelling s) ∧ c!"__VA_ARGS__" ∉ body

instance (body : List Str) : Decidable (PasteInput body) := by unfold PasteInput; infer_instance

theorem expandVarMacroBody_paste (L : E.Lawful) {rec : List Str → List Token → Res (List Token)}
    {names : List Str} {name : Str} {body : List Str} (h : PasteInput body) {mid : List Item}
    (hm : Pastes (nameOf E) E.xidContinue (fillBody (nameOf E) (fun _ => none) false body) mid) :
    OkItems E mid ∧ expandVarMacroBody E rec names name (tokenize E [] body) =
      rec (setInsert names name) (mid.map (tokOf E)) := by
  obtain ⟨hbok, X, hX, hXm⟩ := pastes_expandConcat L hm
    (ok_fill (by simp) body false h.1 (fun hx => absurd hx h.2))
    (edges_fill body false ⟨by simp, by simp⟩)
  refine ⟨hbok, ?_⟩
  unfold expandVarMacroBody
  have := containsVarArgs_false (E := E) (params := []) (tail := []) (.inl rfl) h.2
  simp only [List.map_nil, List.append_nil] at this
  rw [this, tokenize_fill_none L body false, hX]
  simp only [Bool.false_eq_true, if_false, hXm]

theorem expand_of_replaces (L : E.Lawful) {D : Table} (hD : Agrees ms D)
    (hP : Spec.PlainPaste (nameOf E) D) {body : List Str} (hb : PasteInput body) {mid out : List Item}
    (hm : Pastes (nameOf E) E.xidContinue (fillBody (nameOf E) (fun _ => none) false body) mid)
    (h : Replaces OperandKept (nameOf E) E.xidContinue D [] mid out) {toks : List MacroToken}
    (hr : results E out = some toks) :
    Returns (fun n => ms.expand E n body) (.ok toks) := by
  have hx := fun n => expandVarMacroBody_paste L (rec := expandMacroBody E ms n) (names := [])
    (name := []) hb hm
  obtain ⟨_, _, h3⟩ := replaces_good L hD hP h _ sameHidden_top (hx 0).1
  obtain ⟨N, hN⟩ := h3.nil_pre
  refine ⟨by simp, N, ?_⟩
  simp only [MacroSet.expand, (hx N).2, hN N (Nat.le_refl _), detokenize_tok hr]

theorem expandVar_of_replaces (L : E.Lawful) {D : Table} (hD : Agrees ms D)
    (hP : Spec.PlainPaste (nameOf E) D) {name : Str} {body : List Str} (hdef : D name = some (.var body))
    {mid out : List Item}
    (hm : Pastes (nameOf E) E.xidContinue (fillBody (nameOf E) (fun _ => none) false body) mid)
    (h : Replaces OperandKept (nameOf E) E.xidContinue D [name] mid out) {toks : List MacroToken}
    (hr : results E out = some toks) :
    Returns (fun n => ms.expandVar E n name) (.ok toks) := by
  have hb : PasteInput body := hP.var name body hdef
  have hS : SameHidden (setInsert [] name) [name] := by
    intro id hid; simp [setInsert]
  have hx := fun n => expandVarMacroBody_paste L (rec := expandMacroBody E ms n) (names := [])
    (name := name) hb hm
  obtain ⟨_, _, h3⟩ := replaces_good L hD hP h _ hS (hx 0).1
  obtain ⟨N, hN⟩ := h3.nil_pre
  have hv : ms.var.get name = some body := by rw [(hD name).1, hdef]
  refine ⟨by simp, N, ?_⟩
  simp only [MacroSet.expandVar, hv, (hx N).2, hN N (Nat.le_refl _), detokenize_tok hr]

end CMacro
