import Verif.Proofs.Invariant
import Verif.Proofs.Lex
import Verif.Proofs.Store
import Verif.Model.Observe

/-! # The textbook relation is what the model computes -/

namespace CMacro
open Spec (Item Table Def Expands ExpandsAll Call ArgText Balanced Brackets IsBracket)

variable {E : Env} {ms : MacroSet}

/-- The parameters of the macro that is expanded. -/
structure Params (E : Env) where
  names : List Str
  variadic : Bool
  named : ∀ p ∈ names, nameOf E p = some p

/-- No parameters. -/
def Params.none : Params E := ⟨[], false, by simp⟩

variable {ps : Params E}

/-- The model's token for an item: a parameter is not a name. -/
def tokIn (ps : Params E) : Item → Token
  | .name id false => .ident id
  | .name id true => .nonRepl (.ident id)
  | .other s => match Spec.paramIndex ps.names s with
    | some i => .macroArg i
    | none => Token.fromStr E s

/-- Items the proofs deal with. -/
def OkIn (ps : Params E) : Item → Prop
  | .name id _ => id ≠ []
  | .other s => (∀ id, tokIn ps (.other s) ≠ .ident id) ∧ ((tokIn ps (.other s)).isArg = true → s ∈ ps.names ∨ ps.variadic = true) ∧
      (∀ p, tokIn ps (.other s) = .punct p → p = s) ∧ s ≠ c!"#" ∧ s ≠ c!"##"

abbrev OkIns (ps : Params E) (ts : List Item) : Prop := ∀ t ∈ ts, OkIn ps t

theorem fromStr_ne_nonRepl (E : Env) (s : Str) (t : Token) : Token.fromStr E s ≠ .nonRepl t := by
  unfold Token.fromStr
  intro h
  repeat' split at h
  all_goals simp at h

theorem fromStr_ne_placemarker (E : Env) (s : Str) : Token.fromStr E s ≠ .placemarker := by
  unfold Token.fromStr
  intro h
  repeat' split at h
  all_goals simp at h

theorem paramIndex_none {params : List Str} {s : Str} : Spec.paramIndex params s = none ↔ s ∉ params := by
  induction params with
  | nil => simp [Spec.paramIndex]
  | cons p ps ih =>
    simp only [Spec.paramIndex]
    by_cases h : p = s
    · simp [h]
    · simp [h, ih, Ne.symm h]

/-- What is not a name is not a parameter. -/
theorem tokIn_other {s : Str} (h : nameOf E s = none) : tokIn ps (.other s) = Token.fromStr E s := by
  have : Spec.paramIndex ps.names s = none := paramIndex_none.2 fun hm => by simp [ps.named s hm] at h
  simp only [tokIn, this]

theorem nameOf_none {s : Str} (h : ∀ id, Token.fromStr E s ≠ .ident id) : nameOf E s = none := by
  unfold nameOf
  split
  · rfl
  · rename_i hs
    cases hi : identTryFrom E s with
    | none => rfl
    | some id => exact absurd (fromStr_ident.2 ⟨hs, hi⟩) (h id)

theorem tokOf_item (s : Str) : tokIn ps (Spec.item (nameOf E) s) = Token.fromStr E s := by
  unfold Spec.item
  split
  · rename_i id h
    unfold nameOf at h
    split at h
    · simp at h
    · rename_i hs; exact (fromStr_ident.2 ⟨hs, h⟩).symm
  · rename_i h; exact tokIn_other h

theorem tokenize_nil (b : List Str) :
    tokenize E [] b = (b.map (Spec.item (nameOf E))).map (tokIn ps) := by
  simp only [tokenize, List.map_map]
  apply List.map_congr_left
  intro s _
  simp [tokenizeOne, tokOf_item]

/-- Which spellings are ok. -/
theorem okItem_item {s : Str} (hva : s ≠ c!"__VA_ARGS__") (h1 : ¬ c!"\\\n" <+: s)
    (h2 : ¬ c!"\\\r\n" <+: s) (h3 : s ≠ c!"#") (h4 : s ≠ c!"##") :
    OkIn ps (Spec.item (nameOf E) s) := by
  unfold Spec.item
  split
  · rename_i id h
    unfold nameOf at h
    split at h
    · simp at h
    · exact identTryFrom_ne_nil h
  · rename_i h
    simp only [OkIn, tokIn_other h]
    refine ⟨fun id hid => ?_, fun hb => absurd (fromStr_isArg.1 hb) hva, fun p hp => fromStr_punct hp h1 h2, h3, h4⟩
    have := fromStr_ident.1 hid
    simp [nameOf, this.1, this.2] at h

/-! ## Facts about tokens of ok items -/

theorem tokOf_isArg {i : Item} (h : OkIn (.none : Params E) i) : (tokIn (.none : Params E) i).isArg = false := by
  cases i with
  | name id p => cases p <;> rfl
  | other s =>
    cases hb : (tokIn (.none : Params E) (.other s)).isArg with
    | false => rfl
    | true => exact absurd (h.2.1 hb) (by simp [Params.none])

theorem tokOf_ne_hash {i : Item} (h : OkIn ps i) : tokIn ps i ≠ .punct c!"#" := by
  cases i with
  | name id p => cases p <;> simp [tokIn]
  | other s => intro hp; exact h.2.2.2.1 (h.2.2.1 _ hp).symm

theorem tokOf_ne_paste {i : Item} (h : OkIn ps i) : tokIn ps i ≠ .punct c!"##" := by
  cases i with
  | name id p => cases p <;> simp [tokIn]
  | other s => intro hp; exact h.2.2.2.2 (h.2.2.1 _ hp).symm

theorem tokOf_ne_placemarker (i : Item) : tokIn ps i ≠ .placemarker := by
  cases i with
  | name id p => cases p <;> simp [tokIn]
  | other s =>
    simp only [tokIn]
    split
    · simp
    · exact fromStr_ne_placemarker E s

/-! ## `##` is a no-op without `##` -/

theorem expandConcatGo_noop : ∀ n (out ts : List Token), ts.length < n →
    (∀ t ∈ ts, t ≠ Token.punct c!"##") →
    expandConcatGo E n out ts = .ok (out.reverse ++ ts) := by
  intro n
  induction n with
  | zero => intro out ts h _; omega
  | succ n ih =>
    intro out ts h hp
    cases ts with
    | nil => simp [expandConcatGo]
    | cons t rest =>
      simp only [List.length_cons] at h
      unfold expandConcatGo
      rw [if_neg (fun hc => hp t List.mem_cons_self hc.1),
        ih _ _ (by omega) (fun x hx => hp x (List.mem_cons_of_mem _ hx))]
      simp

theorem expandConcat_noop {ts : List Token} (h : ∀ t ∈ ts, t ≠ Token.punct c!"##") :
    expandConcat E ts = .ok ts := by
  unfold expandConcat
  rw [expandConcatGo_noop _ _ _ (Nat.lt_succ_self _) h]; simp

theorem expandConcat_tok {ts : List Item} (h : OkIns ps ts) :
    expandConcat E (ts.map (tokIn ps)) = .ok (ts.map (tokIn ps)) :=
  expandConcat_noop (by
    intro t ht
    obtain ⟨i, hi, rfl⟩ := List.mem_map.1 ht
    exact tokOf_ne_paste (h i hi))

theorem removePlacemarkers_tok (ts : List Item) :
    removePlacemarkers (ts.map (tokIn ps)) = ts.map (tokIn ps) := by
  unfold removePlacemarkers
  rw [List.filter_eq_self]
  intro t ht
  obtain ⟨i, _, rfl⟩ := List.mem_map.1 ht
  simpa using tokOf_ne_placemarker i

/-! ## Scanning past tokens that cannot be replaced -/

/-- Nothing here can be replaced or painted. -/
def InertTok (ms : MacroSet) (S : List Str) (ts : List Token) : Prop :=
  ∀ id, Token.ident id ∈ ts → id ∉ S ∧ ms.fn.get id = none ∧ ms.var.get id = none

def Scan.pushAll (pre : List Token) (s : Scan) : Scan := pre.foldr Scan.push s

theorem pushAll_done (pre out : List Token) :
    Scan.pushAll pre (.done out) = .done (pre ++ out) := by
  induction pre with
  | nil => rfl
  | cons t pre ih => simp [Scan.pushAll] at ih ⊢; rw [ih]; rfl

theorem pushAll_varRef (pre p rest : List Token) (id : Str) (b : List Str) :
    Scan.pushAll pre (.varRef p id b rest) = .varRef (pre ++ p) id b rest := by
  induction pre with
  | nil => rfl
  | cons t pre ih => simp [Scan.pushAll] at ih ⊢; rw [ih]; rfl

theorem pushAll_fnCall (pre p rest : List Token) (id : Str) (a b : List Str)
    (args : List (List Token)) :
    Scan.pushAll pre (.fnCall p id a b args rest) = .fnCall (pre ++ p) id a b args rest := by
  induction pre with
  | nil => rfl
  | cons t pre ih => simp [Scan.pushAll] at ih ⊢; rw [ih]; rfl

theorem fnCallAt_none {id : Str} (h : ms.fn.get id = none) (rest : List Token) :
    fnCallAt ms id rest = none := by
  unfold fnCallAt
  split
  · rw [h]
  · rfl

theorem scan_other (S : List Str) {t : Token} (h : ∀ id, t ≠ .ident id) (rest : List Token) :
    scan ms S (t :: rest) = (scan ms S rest).push t := by
  cases t with
  | ident id => exact absurd rfl (h id)
  | _ => rfl

theorem scan_inert {S : List Str} {pre : List Token} (h : InertTok ms S pre) (ts : List Token) :
    scan ms S (pre ++ ts) = Scan.pushAll pre (scan ms S ts) := by
  induction pre with
  | nil => rfl
  | cons t pre ih =>
    have ih := ih (fun id hid => h id (List.mem_cons_of_mem _ hid))
    simp only [List.cons_append, Scan.pushAll, List.foldr_cons] at ih ⊢
    rw [← ih]
    by_cases hi : ∃ id, t = .ident id
    · obtain ⟨id, rfl⟩ := hi
      obtain ⟨h1, h2, h3⟩ := h id List.mem_cons_self
      simp only [scan, if_neg h1, fnCallAt_none h2, h3]
    · exact scan_other S (fun id hid => hi ⟨id, hid⟩) _

theorem scan_congr_head {S : List Str} {id : Str} (h : id ∈ S) (ts : List Token) :
    scan ms S (.ident id :: ts) = scan ms S (.nonRepl (.ident id) :: ts) := by
  simp only [scan, if_pos h]

theorem expandMacroBody_of_scan {S : List Str} {ts ts' : List Token}
    (h : scan ms S ts = scan ms S ts') (n : Nat) :
    expandMacroBody E ms n S ts = expandMacroBody E ms n S ts' := by
  cases n with
  | zero => rfl
  | succ n => unfold expandMacroBody; rw [h]

/-! ## Collecting arguments -/

theorem tokIn_punct {s : Str} (h : Token.fromStr E s = .punct s) : tokIn ps (.other s) = .punct s := by
  rw [tokIn_other (nameOf_none (by simp [h])), h]

theorem fromStr_open (L : E.Lawful) {o c : Str} (h : Brackets o c) :
    tokIn ps (.other o) = .punct o ∧ tokIn ps (.other c) = .punct c := by
  rcases h with ⟨rfl, rfl⟩ | ⟨rfl, rfl⟩ | ⟨rfl, rfl⟩ <;>
  exact ⟨tokIn_punct (fromStr_bracket L (by simp)), tokIn_punct (fromStr_bracket L (by simp))⟩

/-- A token that `collect_args` just copies, inside brackets. -/
def Boring (t : Token) : Prop := ∀ p, t = .punct p → ¬ IsBracket p

theorem collectArgsGo_boring {t : Token} (h : Boring t) (stack : List Char)
    (args : List (List Token)) (cur ts : List Token)
    (hc : t ≠ .punct c!"," ∨ stack ≠ []) :
    collectArgsGo stack args cur (t :: ts) = collectArgsGo stack args (cur ++ [t]) ts := by
  cases t with
  | punct p =>
    have hb := h p rfl
    simp only [IsBracket, not_or] at hb
    obtain ⟨h1, h2, h3, h4, h5, h6⟩ := hb
    rw [collectArgsGo]
    simp only [h1, h2, h3, h4, h5, h6, if_false]
    rw [if_neg]
    rintro ⟨rfl, hs⟩
    rcases hc with hc | hc
    · exact hc rfl
    · exact hc (by simpa using hs)
  | _ => rfl

theorem boring_tok {i : Item} (h : OkIn ps i) (hb : ∀ s, i = .other s → ¬ IsBracket s) :
    Boring (tokIn ps i) := by
  cases i with
  | name id p => cases p <;> intro p hp <;> simp [tokIn] at hp
  | other s =>
    intro p hp
    have := h.2.2.1 p hp
    subst this
    exact hb _ rfl

/-- Inside brackets balanced text is copied. -/
theorem collectArgsGo_balanced (L : E.Lawful) {ts : List Item} (h : Balanced ts)
    (hok : OkIns ps ts) :
    ∀ (stack : List Char) (args : List (List Token)) (cur rest : List Token), stack ≠ [] →
    collectArgsGo stack args cur (ts.map (tokIn ps) ++ rest) =
      collectArgsGo stack args (cur ++ ts.map (tokIn ps)) rest := by
  induction h with
  | nil => intro stack args cur rest _; simp
  | @name id p ts _ ih =>
    intro stack args cur rest hs
    rw [List.map_cons, List.cons_append,
      collectArgsGo_boring (boring_tok (hok _ List.mem_cons_self) (by simp)) _ _ _ _ (.inr hs),
      ih (fun t ht => hok t (List.mem_cons_of_mem _ ht)) _ _ _ _ hs]
    simp
  | @other s ts hb _ ih =>
    intro stack args cur rest hs
    rw [List.map_cons, List.cons_append,
      collectArgsGo_boring (boring_tok (hok _ List.mem_cons_self) (by simpa using hb)) _ _ _ _
        (.inr hs),
      ih (fun t ht => hok t (List.mem_cons_of_mem _ ht)) _ _ _ _ hs]
    simp
  | @group o c inner ts hb _ _ ih1 ih2 =>
    intro stack args cur rest hs
    obtain ⟨ho, hc⟩ := fromStr_open (ps := ps) L hb
    have hi : OkIns ps inner := fun t ht => hok t (by simp [ht])
    have ht : OkIns ps ts := fun t ht => hok t (by simp [ht])
    have e : ((Item.other o :: inner ++ Item.other c :: ts).map (tokIn ps)) ++ rest =
        Token.punct o :: (inner.map (tokIn ps) ++ (Token.punct c :: (ts.map (tokIn ps) ++ rest))) := by
      simp [ho, hc]
    have e' : cur ++ ((Item.other o :: inner ++ Item.other c :: ts).map (tokIn ps)) =
        cur ++ [Token.punct o] ++ inner.map (tokIn ps) ++ [Token.punct c] ++ ts.map (tokIn ps) := by
      simp [ho, hc]
    rw [e, e']
    have hse : stack.isEmpty = false := by simpa using hs
    rcases hb with ⟨rfl, rfl⟩ | ⟨rfl, rfl⟩ | ⟨rfl, rfl⟩
    · rw [collectArgsGo]; simp only [if_true]
      rw [ih1 hi _ _ _ _ (by simp), collectArgsGo]
      simp [popParen, ih2 ht _ _ _ _ hs]
    · rw [collectArgsGo]; simp
      rw [ih1 hi _ _ _ _ (by simp), collectArgsGo]
      simp [popParen, ih2 ht _ _ _ _ hs]
    · rw [collectArgsGo]; simp
      rw [ih1 hi _ _ _ _ (by simp), collectArgsGo]
      simp [popParen, ih2 ht _ _ _ _ hs]

/-- At top level an argument is copied. -/
theorem collectArgsGo_argText (L : E.Lawful) {ts : List Item} (h : ArgText ts)
    (hok : OkIns ps ts) :
    ∀ (args : List (List Token)) (cur rest : List Token),
    collectArgsGo [] args cur (ts.map (tokIn ps) ++ rest) =
      collectArgsGo [] args (cur ++ ts.map (tokIn ps)) rest := by
  induction h with
  | nil => intro args cur rest; simp
  | @name id p ts _ ih =>
    intro args cur rest
    rw [List.map_cons, List.cons_append,
      collectArgsGo_boring (boring_tok (hok _ List.mem_cons_self) (by simp)) _ _ _ _
        (.inl (by cases p <;> simp [tokIn])),
      ih (fun t ht => hok t (List.mem_cons_of_mem _ ht))]
    simp
  | @other s ts hb hcm _ ih =>
    intro args cur rest
    rw [List.map_cons, List.cons_append,
      collectArgsGo_boring (boring_tok (hok _ List.mem_cons_self) (by simpa using hb)) _ _ _ _
        (.inl (fun hp => hcm ((hok _ List.mem_cons_self).2.2.1 _ hp).symm)),
      ih (fun t ht => hok t (List.mem_cons_of_mem _ ht))]
    simp
  | @group o c inner ts hb hbal _ ih2 =>
    intro args cur rest
    obtain ⟨ho, hc⟩ := fromStr_open (ps := ps) L hb
    have hi : OkIns ps inner := fun t ht => hok t (by simp [ht])
    have ht : OkIns ps ts := fun t ht => hok t (by simp [ht])
    have e : ((Item.other o :: inner ++ Item.other c :: ts).map (tokIn ps)) ++ rest =
        Token.punct o :: (inner.map (tokIn ps) ++ (Token.punct c :: (ts.map (tokIn ps) ++ rest))) := by
      simp [ho, hc]
    have e' : cur ++ ((Item.other o :: inner ++ Item.other c :: ts).map (tokIn ps)) =
        cur ++ [Token.punct o] ++ inner.map (tokIn ps) ++ [Token.punct c] ++ ts.map (tokIn ps) := by
      simp [ho, hc]
    rw [e, e']
    rcases hb with ⟨rfl, rfl⟩ | ⟨rfl, rfl⟩ | ⟨rfl, rfl⟩
    · rw [collectArgsGo]; simp only [if_true]
      rw [collectArgsGo_balanced L hbal hi _ _ _ _ (by simp), collectArgsGo]
      simp [popParen, ih2 ht]
    · rw [collectArgsGo]; simp
      rw [collectArgsGo_balanced L hbal hi _ _ _ _ (by simp), collectArgsGo]
      simp [popParen, ih2 ht]
    · rw [collectArgsGo]; simp
      rw [collectArgsGo_balanced L hbal hi _ _ _ _ (by simp), collectArgsGo]
      simp [popParen, ih2 ht]

theorem collectArgsGo_join (L : E.Lawful) : ∀ (args : List (List Item)), args ≠ [] →
    (∀ a ∈ args, ArgText a) → (∀ a ∈ args, OkIns ps a) →
    ∀ (done : List (List Token)) (rest : List Token),
    collectArgsGo [] done [] ((Spec.commaJoin args).map (tokIn ps) ++ Token.punct c!")" :: rest) =
      some (done ++ args.map (List.map (tokIn ps)), rest) := by
  intro args
  induction args with
  | nil => intro h; exact absurd rfl h
  | cons a as ih =>
    intro _ hat hok done rest
    have ha := hat a List.mem_cons_self
    have hoka := hok a List.mem_cons_self
    cases as with
    | nil =>
      rw [Spec.commaJoin, collectArgsGo_argText L ha hoka, collectArgsGo]
      simp
    | cons b bs =>
      have hcomma : tokIn ps (.other c!",") = .punct c!"," := tokIn_punct (fromStr_bracket L (by simp))
      have e : (Spec.commaJoin (a :: b :: bs)).map (tokIn ps) ++ Token.punct c!")" :: rest =
          a.map (tokIn ps) ++ (Token.punct c!"," ::
            ((Spec.commaJoin (b :: bs)).map (tokIn ps) ++ Token.punct c!")" :: rest)) := by
        simp [Spec.commaJoin, hcomma]
      rw [e, collectArgsGo_argText L ha hoka, collectArgsGo]
      have := ih (by simp) (fun x hx => hat x (List.mem_cons_of_mem _ hx))
        (fun x hx => hok x (List.mem_cons_of_mem _ hx)) (done ++ [a.map (tokIn ps)]) rest
      simpa using this

theorem mem_commaJoin {args : List (List Item)} : ∀ a ∈ args, ∀ x ∈ a, x ∈ Spec.commaJoin args := by
  induction args with
  | nil => simp
  | cons a as ih =>
    intro a' ha' x hx
    cases as with
    | nil => simp at ha'; subst ha'; simpa [Spec.commaJoin] using hx
    | cons b bs =>
      simp only [Spec.commaJoin, List.mem_append, List.mem_cons]
      rcases List.mem_cons.1 ha' with rfl | ha'
      · exact .inl hx
      · exact .inr (.inr (ih a' ha' x hx))

theorem collectArgs_call (L : E.Lawful) {args : List (List Item)} {ts rest : List Item}
    (h : Call args ts rest) (hok : OkIns ps ts) :
    (ts.map (tokIn ps)).head? = some (.punct c!"(") ∧
    collectArgs (ts.map (tokIn ps)) = some (args.map (List.map (tokIn ps)), rest.map (tokIn ps)) := by
  obtain ⟨hne, hat, rfl⟩ := h
  have ho : tokIn ps (.other c!"(") = .punct c!"(" := tokIn_punct (fromStr_bracket L (by simp))
  have hc : tokIn ps (.other c!")") = .punct c!")" := tokIn_punct (fromStr_bracket L (by simp))
  have := collectArgsGo_join L args hne hat
    (fun a ha x hx => hok x (by simp [mem_commaJoin a ha x hx])) [] (rest.map (tokIn ps))
  refine ⟨by simp [ho], ?_⟩
  simp only [List.cons_append, List.map_cons, ho, collectArgs, if_true, List.map_append, hc]
  simpa using this

theorem OkIns.call {args : List (List Item)} {ts rest : List Item}
    (h : Call args ts rest) (hok : OkIns ps ts) :
    (∀ a ∈ args, OkIns ps a) ∧ OkIns ps rest := by
  obtain ⟨hne, hat, rfl⟩ := h
  exact ⟨fun a ha x hx => hok x (by simp [mem_commaJoin a ha x hx]), fun x hx => hok x (by simp [hx])⟩

/-! ## Substitution -/

theorem findIdx_params (s : Str) (tail : List Token) (ht : ∀ t ∈ tail, t.isIdentNamed s = false) :
    ∀ params : List Str,
    (params.map Token.ident ++ tail).findIdx? (Token.isIdentNamed s) = Spec.paramIndex params s := by
  intro params
  induction params with
  | nil =>
    simp only [List.map_nil, List.nil_append, Spec.paramIndex, List.findIdx?_eq_none_iff]
    exact ht
  | cons p ps ih =>
    simp only [List.map_cons, List.cons_append, List.findIdx?_cons, ih, Spec.paramIndex,
      Token.isIdentNamed]
    by_cases h : p = s <;> simp [h]

theorem filter_isParam (params : List Str) (tail : List Token)
    (ht : ∀ t ∈ tail, t.isParam = true) :
    (params.map Token.ident ++ tail).filter Token.isParam = params.map Token.ident ++ tail := by
  rw [List.filter_eq_self]
  intro t h
  rcases List.mem_append.1 h with h | h
  · obtain ⟨p, _, rfl⟩ := List.mem_map.1 h; rfl
  · exact ht t h

theorem tokenizeOne_params (params : List Str) (s : Str) (tail : List Token)
    (ht : tail = [] ∨ tail = [.punct c!"..."]) :
    tokenizeOne E (params.map Token.ident ++ tail) s =
      match Spec.paramIndex params s with
      | some i => .macroArg i
      | none => Token.fromStr E s := by
  unfold tokenizeOne
  rw [filter_isParam _ _ (by rcases ht with rfl | rfl <;> simp [Token.isParam]),
    findIdx_params s tail (by rcases ht with rfl | rfl <;> simp [Token.isIdentNamed])]
  cases Spec.paramIndex params s <;> rfl

theorem paramIndex_lt {params : List Str} {s : Str} {i : Nat}
    (h : Spec.paramIndex params s = some i) : i < params.length ∧ s ∈ params := by
  induction params generalizing i with
  | nil => simp [Spec.paramIndex] at h
  | cons p ps ih =>
    simp only [Spec.paramIndex] at h
    split at h
    · rename_i hp
      simp only [Option.some.injEq] at h; subst h
      simp [hp]
    · cases hi : Spec.paramIndex ps s with
      | none => simp [hi] at h
      | some j =>
        simp only [hi, Option.map_some, Option.some.injEq] at h
        subst h
        have := ih hi
        exact ⟨by simp [this.1], List.mem_cons_of_mem _ this.2⟩

open Spec (PlainSpelling) in
theorem PlainSpelling.item {s : Str} (h : PlainSpelling s) (hva : s ≠ c!"__VA_ARGS__") :
    OkIn ps (Spec.item (nameOf E) s) :=
  okItem_item hva h.2.2.1 h.2.2.2 h.1 h.2.1

open Spec (PlainSpelling) in
theorem PlainSpelling.ne_hash {s : Str} (h : PlainSpelling s) :
    Token.fromStr E s ≠ .punct c!"#" ∧ Token.fromStr E s ≠ .punct c!"##" :=
  ⟨fun hp => h.1 (fromStr_punct hp h.2.2.1 h.2.2.2).symm,
   fun hp => h.2.1 (fromStr_punct hp h.2.2.1 h.2.2.2).symm⟩

theorem okItems_subst {params : List Str} {args' : List (List Item)} {va : Option (List Item)}
    (ha : ∀ a ∈ args', OkIns ps a) (hv : ∀ v, va = some v → OkIns ps v) {body : List Str}
    (hb : ∀ s ∈ body, Spec.PlainSpelling s)
    (hbv : c!"__VA_ARGS__" ∈ body → Spec.paramIndex params c!"__VA_ARGS__" = none → va.isSome) :
    OkIns ps (Spec.subst (nameOf E) params args' va body) := by
  induction body with
  | nil => exact fun _ h => nomatch h
  | cons s body ih =>
    have ih' := ih (fun x hx => hb x (List.mem_cons_of_mem _ hx))
      (fun h => hbv (List.mem_cons_of_mem _ h))
    clear ih
    intro t ht
    simp only [Spec.subst, List.mem_append] at ht
    rcases ht with ht | ht
    · split at ht
      · rename_i i hi
        rw [List.getD_eq_getElem?_getD] at ht
        cases hg : args'[i]? with
        | none => simp [hg] at ht
        | some a => exact ha a (List.mem_of_getElem? hg) t (by simpa [hg] using ht)
      · rename_i hi
        cases va with
        | some v =>
          simp only at ht
          split at ht
          · exact hv v rfl t ht
          · rename_i hs
            simp only [List.mem_singleton] at ht
            subst ht
            exact PlainSpelling.item (hb s List.mem_cons_self) hs
        | none =>
          simp only [List.mem_singleton] at ht
          subst ht
          refine PlainSpelling.item (hb s List.mem_cons_self) ?_
          rintro rfl
          simpa using hbv List.mem_cons_self hi
    · exact ih' t ht

theorem expandArguments_subst {rec : List Token → Res (List Token)} {nested : Bool}
    {params : List Str} {tail : List Token} (htail : tail = [] ∨ tail = [.punct c!"..."])
    {args : List (List Token)} {args' : List (List Item)} {va : Option (List Item)}
    {body : List Str}
    (ha : ∀ a ∈ args', OkIns ps a) (hv : ∀ v, va = some v → OkIns ps v)
    (hb : ∀ s ∈ body, Spec.PlainSpelling s)
    (hp : ∀ s i, Spec.paramIndex params s = some i → ∃ a, args[i]? = some a ∧
      rec a = .ok ((args'.getD i []).map (tokIn ps)))
    (hva : c!"__VA_ARGS__" ∈ body → Spec.paramIndex params c!"__VA_ARGS__" = none →
      ∃ v a, va = some v ∧ selectArg (params.map Token.ident ++ tail) args .varArgs = .ok a ∧
        rec a = .ok (v.map (tokIn ps))) :
    ∀ out : List Token, (∀ t ∈ out, t ≠ Token.punct c!"#" ∧ t ≠ Token.punct c!"##") →
    expandArguments E rec nested (params.map Token.ident ++ tail) args out
      (tokenize E (params.map Token.ident ++ tail) body) =
      .ok (out.reverse ++ (Spec.subst (nameOf E) params args' va body).map (tokIn ps)) := by
  induction body with
  | nil => intro out _; simp [tokenize, expandArguments, Spec.subst]
  | cons s body ih =>
    intro out ho
    have hb' : ∀ x ∈ body, Spec.PlainSpelling x := fun x hx => hb x (List.mem_cons_of_mem _ hx)
    have ih := ih hb' (fun h => hva (List.mem_cons_of_mem _ h))
    have hrest : (tokenize E (params.map Token.ident ++ tail) body).head? ≠
        some (.punct c!"##") := by
      cases body with
      | nil => simp [tokenize]
      | cons x xs =>
        simp only [tokenize, List.map_cons, List.head?_cons, ne_eq, Option.some.injEq]
        rw [tokenizeOne_params _ _ _ htail]
        split
        · simp
        · exact (PlainSpelling.ne_hash (hb' x List.mem_cons_self)).2
    have hout : ∀ o, out.head? = some o → o ≠ Token.punct c!"#" ∧ o ≠ Token.punct c!"##" := by
      intro o h; exact ho o (List.mem_of_mem_head? h)
    -- placing an expanded argument
    have place : ∀ (a : List Token) (v : List Item), rec a = .ok (v.map (tokIn ps)) →
        placeArg E rec nested out a (tokenize E (params.map Token.ident ++ tail) body) =
          .ok ((v.map (tokIn ps)).reverse ++ out) := by
      intro a v hr
      unfold placeArg
      split
      · rename_i out'; exact absurd rfl (hout _ rfl).1
      · rw [hr]
        simp only
        rw [if_neg]
        rintro ⟨h | h, _⟩
        · exact (hout _ h).2 rfl
        · exact hrest h
    have okout : ∀ v : List Item, OkIns ps v → ∀ t ∈ (v.map (tokIn ps)).reverse ++ out,
        t ≠ Token.punct c!"#" ∧ t ≠ Token.punct c!"##" := by
      intro v hv t ht
      rcases List.mem_append.1 ht with ht | ht
      · rw [List.mem_reverse] at ht
        obtain ⟨i, hi, rfl⟩ := List.mem_map.1 ht
        exact ⟨tokOf_ne_hash (hv i hi), tokOf_ne_paste (hv i hi)⟩
      · exact ho t ht
    have hone := tokenizeOne_params (E := E) params s tail htail
    simp only [tokenize, List.map_cons]
    rw [show (List.map (tokenizeOne E (params.map Token.ident ++ tail)) body) =
      tokenize E (params.map Token.ident ++ tail) body from rfl]
    cases hi : Spec.paramIndex params s with
    | some i =>
      simp only [hi] at hone
      rw [hone]
      obtain ⟨a, hga, hra⟩ := hp s i hi
      have hsel : selectArg (params.map Token.ident ++ tail) args (.macroArg i) = .ok a := by
        simp [selectArg, hga]
      have hok : OkIns ps (args'.getD i []) := by
        rw [List.getD_eq_getElem?_getD]
        cases hg : args'[i]? with
        | none => exact fun _ h => nomatch h
        | some a => simpa using ha a (List.mem_of_getElem? hg)
      simp only [expandArguments, reduceCtorEq, if_false, Token.isArg, if_true, hsel,
        place a _ hra, ih _ (okout _ hok), Spec.subst, hi]
      simp
    | none =>
      simp only [hi] at hone
      rw [hone]
      by_cases hs : s = c!"__VA_ARGS__"
      · subst hs
        obtain ⟨v, a, rfl, hsel, hra⟩ := hva List.mem_cons_self hi
        rw [fromStr_varArgs.2 rfl]
        simp only [expandArguments, reduceCtorEq, if_false, Token.isArg, if_true, hsel,
          place a _ hra, ih _ (okout _ (hv v rfl)), Spec.subst, hi]
        simp
      · have hok := PlainSpelling.item (E := E) (ps := ps) (hb s List.mem_cons_self) hs
        have hne := PlainSpelling.ne_hash (E := E) (hb s List.mem_cons_self)
        have harg : (Token.fromStr E s).isArg = false := by
          cases h : (Token.fromStr E s).isArg with
          | false => rfl
          | true => exact absurd (fromStr_isArg.1 h) hs
        rw [expandArguments, if_neg hne.1, if_neg (by simp [harg]), ih _ (by
          intro t ht
          rcases List.mem_cons.1 ht with rfl | ht
          · exact hne
          · exact ho t ht)]
        have hsub : Spec.subst (nameOf E) params args' va (s :: body) =
            Spec.item (nameOf E) s :: Spec.subst (nameOf E) params args' va body := by
          simp only [Spec.subst, hi]
          cases va <;> simp [hs]
        rw [hsub]
        simp [tokOf_item]

/-! ## Parameter lists -/

theorem nameOf_fromStr {s id : Str} (h : nameOf E s = some id) : Token.fromStr E s = .ident id := by
  unfold nameOf at h
  split at h
  · simp at h
  · rename_i hs; exact fromStr_ident.2 ⟨hs, h⟩

theorem fromStr_ellipsis (L : E.Lawful) : Token.fromStr E c!"..." = .punct c!"..." := by
  have hs : E.xidStart '.' = false := by rw [L.startAscii '.' (by decide)]; decide
  have hc : E.xidContinue '.' = false := by rw [L.contAscii '.' (by decide)]; decide
  have hid : identTryFrom E c!"..." = none := by
    simp [identTryFrom, Parser.allConsuming, identParseStr, Parser.or, identPlain, isIdentStart, hs,
      identEscaped, Parser.map, Parser.seq, Parser.mapOpt, identChar, Parser.preceded, Parser.tag,
      Parser.satisfy]
  have hic : identContTryFrom E c!"..." = none := by
    simp [identContTryFrom, Parser.allConsuming, identContParseStr, Parser.or, Parser.takeWhile1,
      hc, Parser.many1, Parser.many0, Parser.many0F, Parser.mapOpt, identChar, Parser.preceded,
      Parser.tag, Parser.satisfy, Parser.map, Parser.seq]
  have hl : Lit.tryFrom c!"..." = none := by decide +kernel
  have hp : punctTryFrom c!"..." = some c!"..." := by decide +kernel
  simp [Token.fromStr, hid, hic, hl, hp]

theorem tokenizeArgNamesGo_named (ps : List Str) : ∀ (done : List Str),
    (done ++ ps).Nodup → (∀ p ∈ ps, nameOf E p = some p) → ∀ tail : List Str,
    tokenizeArgNamesGo E false (done.map Token.ident) (ps ++ tail) =
      tokenizeArgNamesGo E false ((done ++ ps).map Token.ident) tail := by
  induction ps with
  | nil => intro done _ _ tail; simp
  | cons p ps ih =>
    intro done hnd hn tail
    have hp := nameOf_fromStr (hn p List.mem_cons_self)
    have hmem : Token.ident p ∉ done.map Token.ident := by
      intro h
      obtain ⟨q, hq, he⟩ := List.mem_map.1 h
      simp only [Token.ident.injEq] at he
      subst he
      exact (List.nodup_append.1 hnd).2.2 q hq q List.mem_cons_self rfl
    rw [List.cons_append, tokenizeArgNamesGo, hp]
    simp only [Bool.false_eq_true, if_false, if_neg hmem]
    have := ih (done ++ [p]) (by simpa using hnd) (fun q hq => hn q (List.mem_cons_of_mem _ hq)) tail
    simpa using this

theorem tokenizeArgNames_named {ps : List Str} (hnd : ps.Nodup)
    (hn : ∀ p ∈ ps, nameOf E p = some p) :
    tokenizeArgNames E ps = .ok (ps.map Token.ident ++ []) := by
  have := tokenizeArgNamesGo_named (E := E) ps [] (by simpa using hnd) hn []
  simpa [tokenizeArgNames, tokenizeArgNamesGo] using this

theorem tokenizeArgNames_variadic (L : E.Lawful) {ps : List Str} (hnd : ps.Nodup)
    (hn : ∀ p ∈ ps, nameOf E p = some p) :
    tokenizeArgNames E (ps ++ [c!"..."]) = .ok (ps.map Token.ident ++ [.punct c!"..."]) := by
  have := tokenizeArgNamesGo_named (E := E) ps [] (by simpa using hnd) hn [c!"..."]
  simp only [List.map_nil, List.nil_append] at this
  rw [tokenizeArgNames, this, tokenizeArgNamesGo, fromStr_ellipsis L]
  simp [tokenizeArgNamesGo]

theorem firstDuplicate_none {l : List Str} (h : l.Nodup) : firstDuplicate l = none := by
  induction l with
  | nil => rfl
  | cons n ns ih =>
    rw [List.nodup_cons] at h
    simp [firstDuplicate, h.1, ih h.2]

theorem filterMap_paramName (ps : List Str) (tail : List Token) :
    (ps.map Token.ident ++ tail).filterMap Token.paramName =
      ps ++ tail.filterMap Token.paramName := by
  induction ps with
  | nil => simp
  | cons p ps ih => simpa [Token.paramName] using ih

theorem filter_notComment (ps : List Str) (tail : List Token)
    (ht : tail = [] ∨ tail = [.punct c!"..."]) :
    (ps.map Token.ident ++ tail).filter Token.isNotComment = ps.map Token.ident ++ tail := by
  rw [List.filter_eq_self]
  intro t h
  rcases List.mem_append.1 h with h | h
  · obtain ⟨p, _, rfl⟩ := List.mem_map.1 h; rfl
  · rcases ht with rfl | rfl
    · simp at h
    · simp at h; subst h; rfl

theorem containsVarArgs_false {params body : List Str} {tail : List Token}
    (ht : tail = [] ∨ tail = [.punct c!"..."]) (h : c!"__VA_ARGS__" ∉ body) :
    containsVarArgs (tokenize E (params.map Token.ident ++ tail) body) = false := by
  simp only [containsVarArgs, List.any_eq_false, decide_eq_true_eq]
  intro t htm he
  obtain ⟨s, hs, rfl⟩ := List.mem_map.1 htm
  rw [tokenizeOne_params _ _ _ ht] at he
  split at he
  · simp at he
  · exact h (fromStr_varArgs.1 he ▸ hs)

/-! ## The main induction -/

/-- The model's set of hidden names. -/
def SameHidden (S H : List Str) : Prop := ∀ id, id ≠ [] → (id ∈ S ↔ id ∈ H)

theorem SameHidden.insert {S H : List Str} (h : SameHidden S H) (n : Str) :
    SameHidden (setInsert S n) (n :: H) := by
  intro id hid
  have := h id hid
  unfold setInsert
  split
  · rename_i hn
    rw [List.mem_cons, this]
    constructor
    · exact .inr
    · rintro (rfl | h')
      · exact (h id hid).1 hn
      · exact h'
  · simp [List.mem_cons, this]

/-- Names in a finished text are not macros. -/
def Finished (D : Table) (H : List Str) (out : List Item) : Prop :=
  ∀ id, Item.name id false ∈ out → id ∉ H ∧ D id = none

theorem Finished.inert {D : Table} (hD : Agrees ms D) {S H : List Str} (hS : SameHidden S H)
    {out : List Item} (h : Finished D H out) (hok : OkIns ps out) :
    InertTok ms S (out.map (tokIn ps)) := by
  intro id hid
  obtain ⟨i, hi, he⟩ := List.mem_map.1 hid
  cases i with
  | name id' p =>
    cases p with
    | true => simp [tokIn] at he
    | false =>
      simp only [tokIn, Token.ident.injEq] at he
      subst he
      obtain ⟨h1, h2⟩ := h _ hi
      refine ⟨fun hc => h1 ((hS _ (hok _ hi)).1 hc), ?_, ?_⟩
      · rw [(hD id').2, h2]
      · rw [(hD id').1, h2]
  | other s => exact absurd he ((hok _ hi).1 id)

theorem InertTok.append {S : List Str} {a b : List Token} (ha : InertTok ms S a)
    (hb : InertTok ms S b) : InertTok ms S (a ++ b) := by
  intro id h
  rcases List.mem_append.1 h with h | h
  · exact ha id h
  · exact hb id h

/-- With enough fuel the model maps `ts` to `out`, also behind an inert prefix. -/
def Runs (ps : Params E) (ms : MacroSet) (S : List Str) (ts out : List Item) : Prop :=
  ∀ pre, InertTok ms S pre → ∃ N, ∀ n, N ≤ n →
    expandMacroBody E ms n S (pre ++ ts.map (tokIn ps)) = .ok (pre ++ out.map (tokIn ps))

theorem Runs.nil_pre {S : List Str} {ts out : List Item} (h : Runs ps ms S ts out) :
    ∃ N, ∀ n, N ≤ n → expandMacroBody E ms n S (ts.map (tokIn ps)) = .ok (out.map (tokIn ps)) := by
  simpa using h [] (by intro id h; simp at h)

/-- The induction hypothesis for one text. -/
def Good (ps : Params E) (ms : MacroSet) (D : Table) (H : List Str) (ts out : List Item) : Prop :=
  ∀ S, SameHidden S H → OkIns ps ts → OkIns ps out ∧ Finished D H out ∧ Runs ps ms S ts out

/-- The induction hypothesis for a list of arguments. -/
def GoodAll (ps : Params E) (ms : MacroSet) (D : Table) (H : List Str) (as as' : List (List Item)) : Prop :=
  ∀ S, SameHidden S H → (∀ a ∈ as, OkIns ps a) →
    as.length = as'.length ∧ (∀ a ∈ as', OkIns ps a) ∧
    ∃ N, ∀ n, N ≤ n → ∀ i a, as[i]? = some a →
      expandMacroBody E ms n S (a.map (tokIn ps)) = .ok ((as'.getD i []).map (tokIn ps))

/-- Appending a finished prefix item. -/
theorem Runs.cons {S : List Str} {ts out : List Item} (h : Runs ps ms S ts out) {i i' : Item}
    (hscan : ∀ rest, scan ms S (tokIn ps i :: rest) = scan ms S (tokIn ps i' :: rest))
    (hin : InertTok ms S [tokIn ps i']) : Runs ps ms S (i :: ts) (i' :: out) := by
  intro pre hpre
  obtain ⟨N, hN⟩ := h (pre ++ [tokIn ps i']) (hpre.append hin)
  refine ⟨N, fun n hn => ?_⟩
  have := hN n hn
  have e : scan ms S (pre ++ (i :: ts).map (tokIn ps)) =
      scan ms S (pre ++ [tokIn ps i'] ++ ts.map (tokIn ps)) := by
    rw [List.append_assoc, scan_inert hpre, scan_inert hpre]
    simp only [List.map_cons, List.cons_append, List.nil_append, hscan]
  rw [expandMacroBody_of_scan e, this]
  simp

/-- A replacement that finishes: continue with the rest. -/
theorem Runs.replace {S : List Str} {b ts out : List Item} (hb : InertTok ms S (b.map (tokIn ps)))
    (h : Runs ps ms S ts out) {all : List Item}
    (hstep : ∀ pre, InertTok ms S pre → ∃ N, ∀ n, N ≤ n →
      expandMacroBody E ms (n + 1) S (pre ++ all.map (tokIn ps)) =
        expandMacroBody E ms n S (pre ++ b.map (tokIn ps) ++ ts.map (tokIn ps))) :
    Runs ps ms S all (b ++ out) := by
  intro pre hpre
  obtain ⟨N, hN⟩ := hstep pre hpre
  obtain ⟨M, hM⟩ := h (pre ++ b.map (tokIn ps)) (hpre.append hb)
  refine ⟨max N M + 1, fun n hn => ?_⟩
  obtain ⟨n, rfl⟩ : ∃ m, n = m + 1 := ⟨n - 1, by omega⟩
  rw [hN n (by omega), hM n (by omega)]
  simp

theorem Finished.mono {D : Table} {H : List Str} {id : Str} {out : List Item}
    (h : Finished D (id :: H) out) : Finished D H out :=
  fun i hi => ⟨fun hc => (h i hi).1 (List.mem_cons_of_mem _ hc), (h i hi).2⟩

theorem Finished.append {D : Table} {H : List Str} {a b : List Item} (ha : Finished D H a)
    (hb : Finished D H b) : Finished D H (a ++ b) := fun id h =>
  (List.mem_append.1 h).elim (ha id) (hb id)

theorem OkIns.append {a b : List Item} (ha : OkIns ps a) (hb : OkIns ps b) :
    OkIns ps (a ++ b) := fun t h => (List.mem_append.1 h).elim (ha t) (hb t)

theorem OkIns.cons {i : Item} {b : List Item} (ha : OkIn ps i) (hb : OkIns ps b) :
    OkIns ps (i :: b) := by
  intro t h
  rcases List.mem_cons.1 h with rfl | h
  · exact ha
  · exact hb t h

theorem OkIns.tail {i : Item} {b : List Item} (h : OkIns ps (i :: b)) : OkIns ps b :=
  fun t ht => h t (List.mem_cons_of_mem _ ht)

theorem joinArgs_tok (L : E.Lawful) : ∀ args : List (List Item),
    joinArgs (args.map (List.map (tokIn ps))) = (Spec.commaJoin args).map (tokIn ps) := by
  have hcomma : tokIn ps (.other c!",") = .punct c!"," := tokIn_punct (fromStr_bracket L (by simp))
  intro args
  induction args with
  | nil => rfl
  | cons a as ih =>
    cases as with
    | nil => simp [joinArgs, List.intersperse, Spec.commaJoin]
    | cons b bs =>
      simp only [joinArgs, List.map_cons, List.intersperse, List.flatten_cons] at ih ⊢
      rw [ih]
      simp [Spec.commaJoin, hcomma]

/-- One call of a function-like macro in the model. -/
theorem fnCall_step (L : E.Lawful) {S : List Str} {id : Str} {params body : List Str}
    {named : List Str} {tail : List Token}
    (htail : tail = [] ∨ tail = [.punct c!"..."])
    (hid : id ∉ S) (hfn : ms.fn.get id = some (params, body))
    (hnames : tokenizeArgNames E params = .ok (named.map Token.ident ++ tail))
    (hnd : named.Nodup) (hnd' : c!"..." ∉ named)
    {args : List (List Item)} {args' : List (List Item)} {va : Option (List Item)}
    {ts rest b : List Item} (hcall : Call args ts rest) (hts : OkIns ps ts)
    (hb : ∀ s ∈ body, Spec.PlainSpelling s)
    (hbv : c!"__VA_ARGS__" ∈ body → tail = [.punct c!"..."])
    (har : tail = [] → Spec.ArityOk named args)
    (ha : ∀ a ∈ args', OkIns ps a) (hv : ∀ v, va = some v → OkIns ps v)
    (hargs : ∃ N, ∀ n, N ≤ n → ∀ s i, Spec.paramIndex named s = some i →
      ∃ a, (args.map (List.map (tokIn ps)))[i]? = some a ∧
        expandMacroBody E ms n S a = .ok ((args'.getD i []).map (tokIn ps)))
    (hva : tail = [.punct c!"..."] → ∃ N, ∀ n, N ≤ n → ∃ v a, va = some v ∧
      selectArg (named.map Token.ident ++ tail) (args.map (List.map (tokIn ps))) .varArgs = .ok a ∧
        expandMacroBody E ms n S a = .ok (v.map (tokIn ps)))
    (hbody : ∃ N, ∀ n, N ≤ n → expandMacroBody E ms n (setInsert S id)
      ((Spec.subst (nameOf E) named args' va body).map (tokIn ps)) = .ok (b.map (tokIn ps))) :
    ∀ pre, InertTok ms S pre → ∃ N, ∀ n, N ≤ n →
      expandMacroBody E ms (n + 1) S (pre ++ (Item.name id false :: ts).map (tokIn ps)) =
        expandMacroBody E ms n S (pre ++ b.map (tokIn ps) ++ rest.map (tokIn ps)) := by
  intro pre hpre
  obtain ⟨hhead, hcol⟩ := collectArgs_call L hcall hts
  have hscan : scan ms S (pre ++ (Item.name id false :: ts).map (tokIn ps)) =
      .fnCall pre id params body (args.map (List.map (tokIn ps))) (rest.map (tokIn ps)) := by
    rw [scan_inert hpre]
    have : fnCallAt ms id (ts.map (tokIn ps)) =
        some ((params, body), args.map (List.map (tokIn ps)), rest.map (tokIn ps)) := by
      simp only [fnCallAt, hhead, if_true, hfn, hcol, Option.map_some]
    simp only [List.map_cons, tokIn, scan, if_neg hid, this]
    rw [pushAll_fnCall]; simp
  have hsubok : OkIns ps (Spec.subst (nameOf E) named args' va body) := by
    apply okItems_subst ha hv hb
    intro hm _
    obtain ⟨N, hN⟩ := hva (hbv hm)
    obtain ⟨v, _, rfl, _⟩ := hN N (Nat.le_refl _)
    rfl
  obtain ⟨N1, h1⟩ := hargs
  obtain ⟨N3, h3⟩ := hbody
  obtain ⟨N2, h2⟩ : ∃ N, ∀ n, N ≤ n → c!"__VA_ARGS__" ∈ body → ∃ v a, va = some v ∧
      selectArg (named.map Token.ident ++ tail) (args.map (List.map (tokIn ps))) .varArgs = .ok a ∧
        expandMacroBody E ms n S a = .ok (v.map (tokIn ps)) := by
    by_cases hm : c!"__VA_ARGS__" ∈ body
    · obtain ⟨N, hN⟩ := hva (hbv hm)
      exact ⟨N, fun n hn _ => hN n hn⟩
    · exact ⟨0, fun n _ h => absurd h hm⟩
  refine ⟨max N1 (max N2 N3), fun n hn => ?_⟩
  have hexp := expandArguments_subst (E := E) (rec := expandMacroBody E ms n S)
    (nested := decide (S.length > 1)) (params := named) htail
    (args := args.map (List.map (tokIn ps))) (args' := args') (va := va) (body := body) ha hv hb
    (h1 n (by omega)) (fun hm _ => h2 n (by omega) hm) [] (by simp)
  have hfnb : expandFnMacroBody E (expandMacroBody E ms n) S id (named.map Token.ident ++ tail)
      (some (args.map (List.map (tokIn ps))))
      (tokenize E (named.map Token.ident ++ tail) body) = .ok (b.map (tokIn ps)) := by
    unfold expandFnMacroBody
    simp only [filter_notComment _ _ htail]
    have hvb : isVariadic (named.map Token.ident ++ tail) = false → tail = [] := by
      rcases htail with h | h
      · exact fun _ => h
      · intro hc; subst h; simp [isVariadic] at hc
    rw [if_neg, if_neg, filterMap_paramName, firstDuplicate_none]
    · simp only [hexp, List.reverse_nil, List.nil_append]
      rw [expandConcat_tok hsubok]
      simp only [removePlacemarkers_tok]
      exact h3 n (by omega)
    · rcases htail with rfl | rfl
      · simpa using hnd
      · simp only [List.filterMap_cons, Token.paramName, List.filterMap_nil]
        rw [List.nodup_append]
        refine ⟨hnd, by simp, fun a ha' b hb' hab => ?_⟩
        simp only [List.mem_singleton] at hb'
        exact hnd' (hb' ▸ hab ▸ ha')
    · intro hc
      simp only [Bool.and_eq_true, Bool.not_eq_true', Option.map_some, Option.getD_some] at hc
      have ht := hvb hc.1
      have := har ht
      subst ht
      rcases this with h | ⟨h, h'⟩
      · simp [arityMismatch, h] at hc
      · subst h; subst h'; simp [arityMismatch] at hc
    · intro hc
      simp only [Bool.and_eq_true, Bool.not_eq_true'] at hc
      have ht := hvb hc.1
      have hnv : c!"__VA_ARGS__" ∉ body := by
        intro hm
        have := hbv hm
        rw [ht] at this
        simp at this
      rw [containsVarArgs_false htail hnv] at hc
      simp at hc
  rw [expandMacroBody, hscan]
  simp only [hnames, hfnb]

theorem expands_good (L : E.Lawful) {D : Table} (hD : Agrees ms D) (hP : Spec.Plain (nameOf E) D)
    {H : List Str} {ts out : List Item} (h : Expands (nameOf E) D H ts out) :
    Good ps ms D H ts out := by
  refine Expands.rec (motive_1 := fun H ts out _ => Good ps ms D H ts out)
    (motive_2 := fun H as as' _ => GoodAll ps ms D H as as')
    ?nil ?other ?painted ?hidden ?undefined ?object ?call ?callV ?anil ?acons h
  case nil =>
    intro H S _ _
    refine ⟨(fun _ h => nomatch h), (fun _ h => nomatch h), fun pre hpre => ⟨1, fun n hn => ?_⟩⟩
    obtain ⟨n, rfl⟩ : ∃ m, n = m + 1 := ⟨n - 1, by omega⟩
    rw [expandMacroBody, scan_inert hpre]
    simp [scan, pushAll_done]
  case other =>
    intro H s ts out _ ih S hS hok
    obtain ⟨h1, h2, h3⟩ := ih S hS hok.tail
    have hs := hok _ List.mem_cons_self
    refine ⟨.cons hs h1, ?_, h3.cons (fun _ => rfl) ?_⟩
    · intro id hid
      rcases List.mem_cons.1 hid with h | h
      · exact absurd h (by simp)
      · exact h2 id h
    · intro id hid
      simp only [List.mem_singleton] at hid
      exact absurd hid.symm (hs.1 id)
  case painted =>
    intro H id ts out _ ih S hS hok
    obtain ⟨h1, h2, h3⟩ := ih S hS hok.tail
    refine ⟨.cons (hok _ List.mem_cons_self) h1, ?_, h3.cons (fun _ => rfl) ?_⟩
    · intro id hid
      rcases List.mem_cons.1 hid with h | h
      · exact absurd h (by simp)
      · exact h2 id h
    · intro id hid
      simp [tokIn] at hid
  case hidden =>
    intro H id ts out hid _ ih S hS hok
    obtain ⟨h1, h2, h3⟩ := ih S hS hok.tail
    have hne : id ≠ [] := hok _ List.mem_cons_self
    refine ⟨.cons (show OkIn ps (.name id true) from hne) h1, ?_, h3.cons ?_ ?_⟩
    · intro id hid
      rcases List.mem_cons.1 hid with h | h
      · exact absurd h (by simp)
      · exact h2 id h
    · intro rest
      exact scan_congr_head ((hS id hne).2 hid) rest
    · intro id hid
      simp [tokIn] at hid
  case undefined =>
    intro H id ts out hid hdef _ ih S hS hok
    obtain ⟨h1, h2, h3⟩ := ih S hS hok.tail
    have hne : id ≠ [] := hok _ List.mem_cons_self
    refine ⟨.cons (hok _ List.mem_cons_self) h1, ?_, h3.cons (fun _ => rfl) ?_⟩
    · intro i hi
      rcases List.mem_cons.1 hi with h | h
      · simp only [Item.name.injEq, and_true] at h
        subst h
        exact ⟨hid, hdef⟩
      · exact h2 i h
    · intro i hi
      simp only [tokIn, List.mem_singleton, Token.ident.injEq] at hi
      subst hi
      refine ⟨fun hc => hid ((hS _ hne).1 hc), ?_, ?_⟩
      · rw [(hD i).2, hdef]
      · rw [(hD i).1, hdef]
  case object =>
    intro H id body b ts out hid hdef _ _ ihb ih S hS hok
    obtain ⟨h1, h2, h3⟩ := ih S hS hok.tail
    have hne : id ≠ [] := hok _ List.mem_cons_self
    obtain ⟨hpl, hnva⟩ := hP.var id body hdef
    have hbok : OkIns ps (body.map (Spec.item (nameOf E))) := by
      intro t ht
      obtain ⟨s, hs, rfl⟩ := List.mem_map.1 ht
      exact PlainSpelling.item (hpl s hs) (fun h => hnva (h ▸ hs))
    obtain ⟨g1, g2, g3⟩ := ihb _ (hS.insert id) hbok
    refine ⟨g1.append h1, g2.mono.append h2, ?_⟩
    refine Runs.replace (b := b) (g2.mono.inert hD hS g1) h3 ?_
    intro pre hpre
    obtain ⟨N, hN⟩ := g3.nil_pre
    refine ⟨N, fun n hn => ?_⟩
    have hscan : scan ms S (pre ++ (Item.name id false :: ts).map (tokIn ps)) =
        .varRef pre id body (ts.map (tokIn ps)) := by
      rw [scan_inert hpre]
      have hf : ms.fn.get id = none := by rw [(hD id).2, hdef]
      have hv : ms.var.get id = some body := by rw [(hD id).1, hdef]
      simp only [List.map_cons, tokIn, scan, if_neg (fun hc => hid ((hS id hne).1 hc)),
        fnCallAt_none hf, hv]
      rw [pushAll_varRef]; simp
    have hvb : expandVarMacroBody E (expandMacroBody E ms n) S id (tokenize E [] body) =
        .ok (b.map (tokIn ps)) := by
      unfold expandVarMacroBody
      have := containsVarArgs_false (E := E) (params := []) (tail := []) (.inl rfl) hnva
      simp only [List.map_nil, List.append_nil] at this
      rw [this, tokenize_nil, expandConcat_tok hbok]
      simp only [Bool.false_eq_true, if_false, removePlacemarkers_tok]
      exact hN n hn
    rw [expandMacroBody, hscan]
    simp only [hvb]
  case call =>
    intro H id params body args args' b ts rest out hid hdef hell hcall har _ _ _ iha ihb ih S hS hok
    have hne : id ≠ [] := hok _ List.mem_cons_self
    obtain ⟨hoka, hokr⟩ := OkIns.call hcall hok.tail
    obtain ⟨h1, h2, h3⟩ := ih S hS hokr
    obtain ⟨hlen, hoka', N, hN⟩ := iha S hS hoka
    obtain ⟨hpl, hnva, named, hpar, hnd, hnm⟩ := hP.fn id params body hdef
    have hpar : params = named := by
      rcases hpar with h | h
      · exact h
      · exact absurd (by simp [h]) hell
    subst hpar
    have hnva : c!"__VA_ARGS__" ∉ body := fun h => hell (hnva h)
    have hbok : OkIns ps (Spec.subst (nameOf E) params args' none body) :=
      okItems_subst hoka' (by simp) hpl (fun h => absurd h hnva)
    obtain ⟨g1, g2, g3⟩ := ihb _ (hS.insert id) hbok
    refine ⟨g1.append h1, g2.mono.append h2, ?_⟩
    refine Runs.replace (b := b) (g2.mono.inert hD hS g1) h3 ?_
    refine fnCall_step L (tail := []) (.inl rfl) (fun hc => hid ((hS id hne).1 hc))
      (by rw [(hD id).2, hdef]) (tokenizeArgNames_named hnd (fun p hp => (hnm p hp).1)) hnd hell
      (args := args) (args' := args') (va := none) hcall hok.tail hpl
      (fun h => absurd h hnva) (fun _ => har) hoka' (by simp) ⟨N, ?_⟩ (by simp) g3.nil_pre
    intro n hn s i hi
    have hlt := (paramIndex_lt hi).1
    have : i < args.length := by
      rcases har with h | ⟨h, _⟩
      · omega
      · subst h; simp at hlt
    refine ⟨args[i].map (tokIn ps), by simp [this], ?_⟩
    exact hN n hn i args[i] (by simp [this])
  case callV =>
    intro H id params body args args' va b ts rest out hid hdef hell hcall hlen _ _ _ _ iha ihva ihb
      ih S hS hok
    have hne : id ≠ [] := hok _ List.mem_cons_self
    obtain ⟨hoka, hokr⟩ := OkIns.call hcall hok.tail
    obtain ⟨h1, h2, h3⟩ := ih S hS hokr
    obtain ⟨hlen', hoka', N, hN⟩ := iha S hS (fun a ha => hoka a (List.mem_of_mem_take ha))
    have hokj : OkIns ps (Spec.commaJoin (args.drop params.length)) := by
      intro t ht
      have : ∀ as : List (List Item), (∀ a ∈ as, OkIns ps a) → OkIn ps (.other c!",") →
          OkIns ps (Spec.commaJoin as) := by
        intro as
        induction as with
        | nil => intro _ _ _ h; nomatch h
        | cons a as ih =>
          intro h hc
          cases as with
          | nil => exact h a List.mem_cons_self
          | cons b bs =>
            exact (h a List.mem_cons_self).append (.cons hc
              (ih (fun x hx => h x (List.mem_cons_of_mem _ hx)) hc))
      refine this _ (fun a ha => hoka a (List.mem_of_mem_drop ha)) ?_ t ht
      have hcomma : tokIn ps (.other c!",") = .punct c!"," := tokIn_punct (fromStr_bracket L (by simp))
      refine ⟨by simp [hcomma], by simp [hcomma, Token.isArg], ?_, by simp, by simp⟩
      intro p hp
      rw [hcomma] at hp
      simpa using hp.symm
    obtain ⟨v1, _, v3⟩ := ihva S hS hokj
    obtain ⟨hpl, hnva, named, hpar, hnd, hnm⟩ := hP.fn id _ body hdef
    have hpar : params = named := by
      rcases hpar with h | h
      · have := (hnm c!"..." (by rw [← h]; simp)).2
        exact absurd rfl this
      · exact List.append_cancel_right h
    subst hpar
    have hbok : OkIns ps (Spec.subst (nameOf E) params args' (some va) body) :=
      okItems_subst hoka' (by rintro v h; simp at h; exact h ▸ v1) hpl (by simp)
    obtain ⟨g1, g2, g3⟩ := ihb _ (hS.insert id) hbok
    refine ⟨g1.append h1, g2.mono.append h2, ?_⟩
    refine Runs.replace (b := b) (g2.mono.inert hD hS g1) h3 ?_
    refine fnCall_step L (tail := [.punct c!"..."]) (.inr rfl) (fun hc => hid ((hS id hne).1 hc))
      (by rw [(hD id).2, hdef]) (tokenizeArgNames_variadic L hnd (fun p hp => (hnm p hp).1)) hnd hell
      (args := args) (args' := args') (va := some va) hcall hok.tail hpl
      (fun _ => rfl) (by simp) hoka' (by rintro v h; simp at h; exact h ▸ v1) ⟨N, ?_⟩ ?_ g3.nil_pre
    · intro n hn s i hi
      have hlt := (paramIndex_lt hi).1
      have : i < args.length := by omega
      refine ⟨args[i].map (tokIn ps), by simp [this], ?_⟩
      exact hN n hn i args[i] (by simp [this, hlt])
    · intro _
      obtain ⟨M, hM⟩ := v3.nil_pre
      refine ⟨M, fun n hn => ⟨va, (Spec.commaJoin (args.drop params.length)).map (tokIn ps), rfl, ?_,
        hM n hn⟩⟩
      simp only [selectArg, List.length_append, List.length_map, List.length_cons, List.length_nil]
      rw [if_neg (by omega)]
      rw [← joinArgs_tok L]
      simp
  case anil =>
    intro H S _ _
    refine ⟨rfl, by simp, 0, ?_⟩
    intro n _ i a h
    simp at h
  case acons =>
    intro H a a' as as' _ _ iha ihas S hS hok
    obtain ⟨h1, _, h3⟩ := iha S hS (hok a List.mem_cons_self)
    obtain ⟨g1, g2, N, hN⟩ := ihas S hS (fun x hx => hok x (List.mem_cons_of_mem _ hx))
    obtain ⟨M, hM⟩ := h3.nil_pre
    refine ⟨by simp [g1], ?_, max N M, ?_⟩
    · intro x hx
      rcases List.mem_cons.1 hx with rfl | hx
      · exact h1
      · exact g2 x hx
    · intro n hn i x hx
      cases i with
      | zero =>
        simp only [List.getElem?_cons_zero, Option.some.injEq] at hx
        subst hx
        simpa using hM n (by omega)
      | succ i =>
        simp only [List.getElem?_cons_succ] at hx
        simpa using hN n (by omega) i x hx

/-! ## Without parameters -/

/-- The model's token for an item, outside of function-like macros. -/
abbrev tokOf (E : Env) : Item → Token := tokIn (.none : Params E)

abbrev OkItem (E : Env) : Item → Prop := OkIn (.none : Params E)

abbrev OkItems (E : Env) (ts : List Item) : Prop := OkIns (.none : Params E) ts

theorem tokOf_other (s : Str) : tokIn (.none : Params E) (.other s) = Token.fromStr E s := rfl

end CMacro
