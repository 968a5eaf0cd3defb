import Verif.Proofs.ExpandTop

/-! # Brackets, and totality of expansion for well-nested definitions -/

namespace CMacro
open Spec (Item Table Def Expands ExpandsAll Call ArgText Balanced Brackets IsBracket Complete
  WellNested)

/-! ## A stack machine for brackets -/

/-- Opening bracket: its partner. -/
def closer (s : Str) : Option Str :=
  if s = c!"(" then some c!")" else if s = c!"[" then some c!"]"
  else if s = c!"{" then some c!"}" else none

/-- Is it a closing bracket? -/
def isCloser (s : Str) : Bool := s = c!")" || s = c!"]" || s = c!"}"

/-- Run the stack of expected closing brackets.  `top`: may a comma occur at top level? -/
def brun (top : Bool) : List Str → List Item → Option (List Str)
  | st, [] => some st
  | st, .name _ _ :: ts => brun top st ts
  | st, .other s :: ts =>
    match closer s with
    | some c => brun top (c :: st) ts
    | none =>
      if isCloser s then
        match st with
        | c :: st => if s = c then brun top st ts else none
        | [] => none
      else if s = c!"," ∧ st = [] ∧ top = false then none
      else brun top st ts

theorem closer_iff {o c : Str} : closer o = some c ↔ Brackets o c := by
  unfold closer Brackets
  constructor
  · intro h
    split at h
    · rename_i ho; simp at h; exact .inl ⟨ho, h.symm⟩
    · split at h
      · rename_i ho; simp at h; exact .inr (.inl ⟨ho, h.symm⟩)
      · split at h
        · rename_i ho; simp at h; exact .inr (.inr ⟨ho, h.symm⟩)
        · simp at h
  · rintro (⟨rfl, rfl⟩ | ⟨rfl, rfl⟩ | ⟨rfl, rfl⟩) <;> decide

theorem brackets_closer {o c : Str} (h : Brackets o c) : isCloser c = true ∧ closer c = none := by
  rcases h with ⟨rfl, rfl⟩ | ⟨rfl, rfl⟩ | ⟨rfl, rfl⟩ <;> decide

theorem isBracket_iff {s : Str} : IsBracket s ↔ closer s ≠ none ∨ isCloser s = true := by
  unfold IsBracket closer isCloser
  constructor
  · rintro (rfl | rfl | rfl | rfl | rfl | rfl) <;> decide
  · intro h
    simp only [Bool.or_eq_true, decide_eq_true_eq] at h
    rcases h with h | h
    · split at h
      · simp [*]
      · split at h
        · simp [*]
        · split at h
          · simp [*]
          · simp at h
    · rcases h with (h | h) | h <;> simp [h]

theorem not_isBracket {s : Str} (h : ¬ IsBracket s) : closer s = none ∧ isCloser s = false := by
  rw [isBracket_iff] at h
  simp only [not_or, Decidable.not_not, Bool.not_eq_true] at h
  exact h

theorem brun_append (top : Bool) : ∀ (a b : List Item) (st : List Str),
    brun top st (a ++ b) = (brun top st a).bind fun st => brun top st b := by
  intro a
  induction a with
  | nil => intro b st; rfl
  | cons i a ih =>
    intro b st
    cases i with
    | name id p => simpa [brun] using ih b st
    | other s =>
      simp only [List.cons_append, brun]
      cases closer s with
      | some c => exact ih b _
      | none =>
        simp only
        split
        · cases st with
          | nil => rfl
          | cons c st =>
            simp only
            split
            · exact ih b st
            · rfl
        · split
          · rfl
          · exact ih b st

/-- More on the stack does not hurt. -/
theorem brun_frame (top : Bool) : ∀ (ts : List Item) (st st' ext : List Str),
    brun top st ts = some st' → brun top (st ++ ext) ts = some (st' ++ ext) := by
  intro ts
  induction ts with
  | nil => intro st st' ext h; simp [brun] at h ⊢; rw [h]
  | cons i ts ih =>
    intro st st' ext h
    cases i with
    | name id p => simp only [brun] at h ⊢; exact ih st st' ext h
    | other s =>
      simp only [brun] at h ⊢
      cases hc : closer s with
      | some c => rw [hc] at h; exact ih (c :: st) st' ext h
      | none =>
        rw [hc] at h
        simp only at h ⊢
        split
        · rename_i hcl
          rw [if_pos hcl] at h
          cases st with
          | nil => simp at h
          | cons c st =>
            simp only [List.cons_append] at h ⊢
            split
            · rename_i hs; rw [if_pos hs] at h; exact ih st st' ext h
            · rename_i hs; rw [if_neg hs] at h; simp at h
        · rename_i hcl
          rw [if_neg hcl] at h
          split at h
          · simp at h
          · rename_i hcm
            rw [if_neg]
            · exact ih st st' ext h
            · rintro ⟨h1, h2, h3⟩
              exact hcm ⟨h1, (List.append_eq_nil_iff.1 h2).1, h3⟩

theorem brun_frame' {top : Bool} {ts : List Item} (h : brun top [] ts = some []) (st : List Str) :
    brun top st ts = some st := by
  simpa using brun_frame top ts [] [] st h

theorem brun_top {st st' : List Str} {ts : List Item} (h : brun false st ts = some st') :
    brun true st ts = some st' := by
  induction ts generalizing st with
  | nil => exact h
  | cons i ts ih =>
    cases i with
    | name id p => exact ih h
    | other s =>
      simp only [brun] at h ⊢
      cases hc : closer s with
      | some c => rw [hc] at h; exact ih h
      | none =>
        rw [hc] at h
        simp only at h ⊢
        split
        · rename_i hcl
          rw [if_pos hcl] at h
          cases st with
          | nil => simp at h
          | cons c st =>
            simp only at h ⊢
            split
            · rename_i hs; rw [if_pos hs] at h; exact ih h
            · rename_i hs; rw [if_neg hs] at h; simp at h
        · rename_i hcl
          rw [if_neg hcl] at h
          split at h
          · simp at h
          · simpa using ih h

/-- With a non-empty stack commas do not matter, until it is popped. -/
theorem brun_inner {top : Bool} {st : List Str} {ts : List Item} (h : brun true [] ts = some [])
    (hne : st ≠ []) : brun top st ts = some st := by
  have key : ∀ (ts : List Item) (a a' ext : List Str), ext ≠ [] → brun true a ts = some a' →
      brun top (a ++ ext) ts = some (a' ++ ext) := by
    intro ts
    induction ts with
    | nil => intro a a' ext _ h; simp [brun] at h ⊢; rw [h]
    | cons i ts ih =>
      intro a a' ext hne h
      cases i with
      | name id p => exact ih a a' ext hne h
      | other s =>
        simp only [brun] at h ⊢
        cases hc : closer s with
        | some c => rw [hc] at h; exact ih (c :: a) a' ext hne h
        | none =>
          rw [hc] at h
          simp only at h ⊢
          split
          · rename_i hcl
            rw [if_pos hcl] at h
            cases a with
            | nil => simp at h
            | cons c a =>
              simp only [List.cons_append] at h ⊢
              split
              · rename_i hs; rw [if_pos hs] at h; exact ih a a' ext hne h
              · rename_i hs; rw [if_neg hs] at h; simp at h
          · rename_i hcl
            rw [if_neg hcl] at h
            rw [if_neg (by rintro ⟨_, h2, _⟩; exact hne (List.append_eq_nil_iff.1 h2).2)]
            exact ih a a' ext hne (by simpa using h)
  simpa using key ts [] [] st hne h

theorem balanced_brun {ts : List Item} (h : Balanced ts) : brun true [] ts = some [] := by
  induction h with
  | nil => rfl
  | name _ ih => exact ih
  | other hb _ ih =>
    obtain ⟨h1, h2⟩ := not_isBracket hb
    simp only [brun, h1, h2]
    simpa using ih
  | @group o c inner ts hb _ _ ih1 ih2 =>
    obtain ⟨h1, h2⟩ := brackets_closer hb
    simp only [List.cons_append, brun, closer_iff.2 hb, brun_append, brun_frame' ih1, Option.bind_some,
      h1, h2, if_true]
    exact ih2

theorem argText_brun {ts : List Item} (h : ArgText ts) : brun false [] ts = some [] := by
  induction h with
  | nil => rfl
  | name _ ih => exact ih
  | other hb hcm _ ih =>
    obtain ⟨h1, h2⟩ := not_isBracket hb
    simp only [brun, h1, h2, Bool.false_eq_true, if_false]
    rw [if_neg (by simp [hcm])]
    exact ih
  | @group o c inner ts hb hin _ ih2 =>
    obtain ⟨h1, h2⟩ := brackets_closer hb
    simp only [List.cons_append, brun, closer_iff.2 hb, brun_append,
      brun_inner (top := false) (balanced_brun hin) (List.cons_ne_nil c []), Option.bind_some,
      h1, h2, if_true]
    exact ih2

/-- Split at the bracket that pops the stack. -/
theorem brun_split (top : Bool) : ∀ (k : Nat) (ts : List Item) (c : Str) (st : List Str),
    ts.length ≤ k → brun top (c :: st) ts = some [] →
    ∃ inner rest, ts = inner ++ .other c :: rest ∧ Balanced inner ∧ closer c = none ∧
      isCloser c = true ∧ brun top st rest = some [] := by
  intro k
  induction k with
  | zero =>
    intro ts c st hk h
    cases ts with
    | nil => simp [brun] at h
    | cons i ts => simp at hk
  | succ k ih =>
    intro ts c st hk h
    cases ts with
    | nil => simp [brun] at h
    | cons i ts =>
      simp only [List.length_cons] at hk
      cases i with
      | name id p =>
        simp only [brun] at h
        obtain ⟨inner, rest, rfl, hb, h1, h2, h3⟩ := ih ts c st (by omega) h
        exact ⟨.name id p :: inner, rest, rfl, .name hb, h1, h2, h3⟩
      | other s =>
        simp only [brun] at h
        cases hc : closer s with
        | some c' =>
          rw [hc] at h
          obtain ⟨inner, rest, rfl, hb, h1, h2, h3⟩ := ih ts c' (c :: st) (by omega) h
          simp only [List.length_append, List.length_cons] at hk
          obtain ⟨inner', rest', rfl, hb', h1', h2', h3'⟩ := ih rest c st (by omega) h3
          refine ⟨.other s :: inner ++ .other c' :: inner', rest', by simp,
            .group (closer_iff.1 hc) hb hb', h1', h2', h3'⟩
        | none =>
          rw [hc] at h
          simp only at h
          split at h
          · rename_i hcl
            split at h
            · rename_i hs
              subst hs
              exact ⟨[], ts, rfl, .nil, hc, hcl, h⟩
            · simp at h
          · rename_i hcl
            rw [if_neg (by simp)] at h
            obtain ⟨inner, rest, rfl, hb, h1, h2, h3⟩ := ih ts c st (by omega) h
            refine ⟨.other s :: inner, rest, rfl, .other ?_ hb, h1, h2, h3⟩
            rw [isBracket_iff]
            simp [hc, hcl]

theorem brun_balanced : ∀ (k : Nat) (ts : List Item), ts.length ≤ k → brun true [] ts = some [] →
    Balanced ts := by
  intro k
  induction k with
  | zero =>
    intro ts hk _
    cases ts with
    | nil => exact .nil
    | cons i ts => simp at hk
  | succ k ih =>
    intro ts hk h
    cases ts with
    | nil => exact .nil
    | cons i ts =>
      simp only [List.length_cons] at hk
      cases i with
      | name id p => exact .name (ih ts (by omega) h)
      | other s =>
        simp only [brun] at h
        cases hc : closer s with
        | some c =>
          rw [hc] at h
          obtain ⟨inner, rest, rfl, hb, _, _, h3⟩ := brun_split true k ts c [] (by omega) h
          simp only [List.length_append, List.length_cons] at hk
          exact .group (closer_iff.1 hc) hb (ih rest (by omega) h3)
        | none =>
          rw [hc] at h
          simp only at h
          split at h
          · simp at h
          · rename_i hcl
            simp only [Bool.true_eq_false, and_false, if_false] at h
            exact .other (by rw [isBracket_iff]; simp [hc, hcl]) (ih ts (by omega) h)

theorem brun_argText : ∀ (k : Nat) (ts : List Item), ts.length ≤ k → brun false [] ts = some [] →
    ArgText ts := by
  intro k
  induction k with
  | zero =>
    intro ts hk _
    cases ts with
    | nil => exact .nil
    | cons i ts => simp at hk
  | succ k ih =>
    intro ts hk h
    cases ts with
    | nil => exact .nil
    | cons i ts =>
      simp only [List.length_cons] at hk
      cases i with
      | name id p => exact .name (ih ts (by omega) h)
      | other s =>
        simp only [brun] at h
        cases hc : closer s with
        | some c =>
          rw [hc] at h
          obtain ⟨inner, rest, rfl, hb, _, _, h3⟩ := brun_split false k ts c [] (by omega) h
          simp only [List.length_append, List.length_cons] at hk
          exact .group (closer_iff.1 hc) hb (ih rest (by omega) h3)
        | none =>
          rw [hc] at h
          simp only at h
          split at h
          · simp at h
          · rename_i hcl
            split at h
            · simp at h
            · rename_i hcm
              refine .other (by rw [isBracket_iff]; simp [hc, hcl]) ?_ (ih ts (by omega) h)
              rintro rfl
              exact hcm (by simp)

theorem argText_iff {ts : List Item} : ArgText ts ↔ brun false [] ts = some [] :=
  ⟨argText_brun, brun_argText _ _ (Nat.le_refl _)⟩

theorem ArgText.append {a b : List Item} (ha : ArgText a) (hb : ArgText b) : ArgText (a ++ b) := by
  rw [argText_iff] at *
  rw [brun_append, ha]; exact hb

/-- A call leaves the stack alone. -/
theorem brun_call {args : List (List Item)} {ts rest : List Item} (h : Call args ts rest)
    (top : Bool) (st : List Str) : brun top st ts = brun top st rest := by
  obtain ⟨_, hat, rfl⟩ := h
  have hj : ∀ args : List (List Item), (∀ a ∈ args, ArgText a) →
      brun true [] (Spec.commaJoin args) = some [] := by
    intro args
    induction args with
    | nil => intro _; rfl
    | cons a as ih =>
      intro h
      have ha := brun_top (argText_brun (h a List.mem_cons_self))
      cases as with
      | nil => exact ha
      | cons b bs =>
        rw [Spec.commaJoin, brun_append, ha]
        · simpa [brun, closer, isCloser] using ih (fun x hx => h x (List.mem_cons_of_mem _ hx))
        · simp
  have := brun_inner (top := top) (hj args hat) (List.cons_ne_nil c!")" st)
  simp only [List.cons_append, brun]
  rw [show closer c!"(" = some c!")" from rfl]
  simp only [brun_append, this, Option.bind_some, brun]
  rfl

/-! ## Appending -/

theorem Call.append {args : List (List Item)} {ts rest : List Item} (h : Call args ts rest)
    (b : List Item) : Call args (ts ++ b) (rest ++ b) := by
  obtain ⟨h1, h2, rfl⟩ := h
  exact ⟨h1, h2, by simp⟩

theorem Expands.append' {nameOf : Str → Option Str} {D : Table} {H : List Str} {a oa b ob : List Item}
    (ha : Expands nameOf D H a oa) (hb : Expands nameOf D H b ob) :
    Expands nameOf D H (a ++ b) (oa ++ ob) := by
  have := Expands.rec (nameOf := nameOf) (D := D) (motive_1 := fun H' a oa _ => H' = H →
      Expands nameOf D H (a ++ b) (oa ++ ob)) (motive_2 := fun _ _ _ _ => True)
    (t := ha)
  refine this ?nil ?other ?painted ?hidden ?undefined ?object ?call ?callV ?anil ?acons rfl
  case nil => rintro H' rfl; exact hb
  case other => rintro H' s ts out _ ih rfl; exact .other (ih rfl)
  case painted => rintro H' s ts out _ ih rfl; exact .painted (ih rfl)
  case hidden => rintro H' s ts out hid _ ih rfl; exact .hidden hid (ih rfl)
  case undefined => rintro H' s ts out hid hd _ ih rfl; exact .undefined hid hd (ih rfl)
  case object =>
    rintro H' id body b' ts out hid hd h1 _ _ ih rfl
    rw [List.append_assoc]
    exact .object hid hd h1 (ih rfl)
  case call =>
    rintro H' id params body args args' b' ts rest out hid hd hell hc har h1 h2 _ _ _ ih rfl
    rw [List.append_assoc]
    exact .call hid hd hell (Call.append hc b) har h1 h2 (ih rfl)
  case callV =>
    rintro H' id params body args args' va b' ts rest out hid hd hell hc har h1 h2 h3 _ _ _ _ ih rfl
    rw [List.append_assoc]
    exact .callVariadic hid hd hell (Call.append hc b) har h1 h2 h3 (ih rfl)
  case anil => intros; trivial
  case acons => intros; trivial

theorem Complete.append {D : Table} {a b : List Item} (ha : Complete D a) (hb : Complete D b) :
    Complete D (a ++ b) := by
  induction ha with
  | nil => exact hb
  | other _ ih => exact .other ih
  | painted _ ih => exact .painted ih
  | name h _ ih => exact .name h ih
  | call h1 h2 h3 h4 _ _ ih => exact .call h1 (Call.append h2 b) h3 h4 ih

/-! ## Expanded text is finished, and keeps its brackets -/

theorem expands_finished {nameOf : Str → Option Str} {D : Table} {H : List Str} {ts out : List Item}
    (h : Expands nameOf D H ts out) : ∀ id, Item.name id false ∈ out → D id = none := by
  refine Expands.rec (motive_1 := fun _ _ out _ => ∀ id, Item.name id false ∈ out → D id = none)
    (motive_2 := fun _ _ _ _ => True)
    ?nil ?other ?painted ?hidden ?undefined ?object ?call ?callV ?anil ?acons h
  case nil => intro H id h; simp at h
  case other => intro H s ts out _ ih id h; exact ih id (by simpa using h)
  case painted => intro H s ts out _ ih id h; exact ih id (by simpa using h)
  case hidden => intro H s ts out _ _ ih id h; exact ih id (by simpa using h)
  case undefined =>
    intro H i ts out _ hd _ ih id h
    rcases List.mem_cons.1 h with h | h
    · simp at h; rw [h]; exact hd
    · exact ih id h
  case object =>
    intro H i body b ts out _ _ _ _ ihb ih id h
    exact (List.mem_append.1 h).elim (ihb id) (ih id)
  case call =>
    intro H i params body args args' b ts rest out _ _ _ _ _ _ _ _ _ ihb ih id h
    exact (List.mem_append.1 h).elim (ihb id) (ih id)
  case callV =>
    intro H i params body args args' va b ts rest out _ _ _ _ _ _ _ _ _ _ _ ihb ih id h
    exact (List.mem_append.1 h).elim (ihb id) (ih id)
  case anil => intros; trivial
  case acons => intros; trivial

theorem complete_of_finished {D : Table} : ∀ {out : List Item},
    (∀ id, Item.name id false ∈ out → D id = none) → Complete D out := by
  intro out
  induction out with
  | nil => intro _; exact .nil
  | cons i out ih =>
    intro h
    have ih := ih (fun id hid => h id (List.mem_cons_of_mem _ hid))
    cases i with
    | other s => exact .other ih
    | name id p =>
      cases p with
      | true => exact .painted ih
      | false => exact .name (by simp [h id List.mem_cons_self]) ih

/-- Put texts in place of marked names. -/
def fill (σ : Str → List Item) : Item → List Item
  | .name p true => σ p
  | i => [i]

theorem fill_argText {σ : Str → List Item} (hσ : ∀ p, ArgText (σ p)) {ts : List Item} (top : Bool) :
    ∀ st st', brun top st ts = some st' → brun top st (ts.flatMap (fill σ)) = some st' := by
  induction ts with
  | nil => intro st st' h; exact h
  | cons i ts ih =>
    intro st st' h
    rw [List.flatMap_cons]
    cases i with
    | other s =>
      simp only [fill, List.cons_append, List.nil_append, brun] at h ⊢
      cases hc : closer s with
      | some c => rw [hc] at h; exact ih _ _ h
      | none =>
        rw [hc] at h
        simp only at h ⊢
        split
        · rename_i hcl
          rw [if_pos hcl] at h
          cases st with
          | nil => simp at h
          | cons c st =>
            simp only at h ⊢
            split
            · rename_i hs; rw [if_pos hs] at h; exact ih _ _ h
            · rename_i hs; rw [if_neg hs] at h; simp at h
        · rename_i hcl
          rw [if_neg hcl] at h
          split at h
          · simp at h
          · rename_i hcm
            rw [if_neg hcm]; exact ih _ _ h
    | name id p =>
      cases p with
      | false => exact ih st st' h
      | true =>
        have hb : brun top [] (σ id) = some [] := by
          cases top
          · exact argText_brun (hσ id)
          · exact brun_top (argText_brun (hσ id))
        simp only [fill, brun_append, brun_frame' hb, Option.bind_some]
        exact ih st st' h

theorem fill_call {σ : Str → List Item} (hσ : ∀ p, ArgText (σ p)) {args : List (List Item)}
    {ts rest : List Item} (h : Call args ts rest) :
    Call (args.map (List.flatMap (fill σ))) (ts.flatMap (fill σ)) (rest.flatMap (fill σ)) := by
  obtain ⟨h1, h2, rfl⟩ := h
  refine ⟨by simpa using h1, ?_, ?_⟩
  · intro a ha
    obtain ⟨a', ha', rfl⟩ := List.mem_map.1 ha
    rw [argText_iff]
    exact fill_argText hσ false [] [] (argText_brun (h2 a' ha'))
  · have hj : ∀ args : List (List Item), (Spec.commaJoin args).flatMap (fill σ) =
        Spec.commaJoin (args.map (List.flatMap (fill σ))) := by
      intro args
      induction args with
      | nil => rfl
      | cons a as ih =>
        cases as with
        | nil => rfl
        | cons b bs =>
          rw [Spec.commaJoin, List.flatMap_append, List.flatMap_cons, ih]
          · simp only [List.map_cons, fill]
            exact (Spec.commaJoin.eq_3 _ _ (by simp)).symm
          · simp
    simp [List.flatMap_append, fill, hj]

theorem fill_complete {D : Table} {σ : Str → List Item} (hσ : ∀ p, ArgText (σ p))
    (hc : ∀ p, Complete D (σ p)) {ts : List Item} (h : Complete D ts) :
    Complete D (ts.flatMap (fill σ)) := by
  induction h with
  | nil => exact .nil
  | other _ ih => exact .other ih
  | painted _ ih => rw [List.flatMap_cons]; exact Complete.append (hc _) ih
  | name hd _ ih => exact .name hd ih
  | @call id params body args ts rest hd hcall har _ _ iha ih =>
    rw [List.flatMap_cons]
    refine .call hd (fill_call hσ hcall) ?_ ?_ ih
    · rcases har with h | ⟨h, h'⟩
      · exact .inl (by simpa using h)
      · exact .inr ⟨h, by simp [h']⟩
    · intro a ha
      obtain ⟨a', ha', rfl⟩ := List.mem_map.1 ha
      exact iha a' ha'

/-- What a placeholder stands for. -/
def argFor (params : List Str) (args : List (List Item)) (p : Str) : List Item :=
  match Spec.paramIndex params p with
  | some i => args.getD i []
  | none => []

theorem subst_eq_fill {nameOf : Str → Option Str} (params : List Str) (args : List (List Item)) :
    ∀ body : List Str, Spec.subst nameOf params args none body =
      (Spec.placeholders nameOf params body).flatMap (fill (argFor params args)) := by
  intro body
  induction body with
  | nil => rfl
  | cons s body ih =>
    simp only [Spec.subst, Spec.placeholders, List.map_cons, List.flatMap_cons] at ih ⊢
    rw [ih]
    congr 1
    cases hi : Spec.paramIndex params s with
    | some i =>
      have : s ∈ params := (paramIndex_lt hi).2
      simp [this, fill, argFor, hi]
    | none =>
      have : s ∉ params := paramIndex_none.1 hi
      simp only [this, if_false]
      unfold Spec.item
      split <;> rfl

theorem argFor_all {Q : List Item → Prop} (hnil : Q []) {params : List Str}
    {args : List (List Item)} (h : ∀ a ∈ args, Q a) (p : Str) : Q (argFor params args p) := by
  unfold argFor
  split
  · rename_i i _
    rw [List.getD_eq_getElem?_getD]
    cases hg : args[i]? with
    | none => exact hnil
    | some a => exact h a (List.mem_of_getElem? hg)
  · exact hnil

theorem expands_brun {nameOf : Str → Option Str} {D : Table} (hW : WellNested nameOf D) {H : List Str}
    {ts out : List Item} (h : Expands nameOf D H ts out) :
    ∀ st st', brun false st ts = some st' → brun false st out = some st' := by
  refine Expands.rec
    (motive_1 := fun _ ts out _ => ∀ st st', brun false st ts = some st' →
      brun false st out = some st')
    (motive_2 := fun _ as as' _ => (∀ a ∈ as, ArgText a) → ∀ a ∈ as', ArgText a)
    ?nil ?other ?painted ?hidden ?undefined ?object ?call ?callV ?anil ?acons h
  case nil => intro H st st' h; exact h
  case other =>
    intro H s ts out _ ih st st' h
    have e : ∀ l, brun false st (.other s :: l) =
        (brun false st [.other s]).bind fun st => brun false st l :=
      fun l => brun_append false [.other s] l st
    rw [e] at h ⊢
    cases hb : brun false st [.other s] with
    | none => simp [hb] at h
    | some st1 => rw [hb] at h; exact ih _ _ h
  case painted => intro H s ts out _ ih st st' h; exact ih st st' h
  case hidden => intro H s ts out _ _ ih st st' h; exact ih st st' h
  case undefined => intro H s ts out _ _ _ ih st st' h; exact ih st st' h
  case object =>
    intro H id body b ts out _ hd _ _ ihb ih st st' h
    have hb := ihb [] [] (argText_brun (hW.var id body hd).2)
    rw [brun_append, brun_frame' hb]
    exact ih st st' h
  case call =>
    intro H id params body args args' b ts rest out _ hd _ hc _ _ _ _ iha ihb ih st st' h
    have ha := iha hc.2.1
    have hb := ihb [] [] (by
      rw [subst_eq_fill]
      exact fill_argText (fun p => argFor_all .nil ha p) false [] []
        (argText_brun (hW.fn id params body hd).2.2))
    rw [brun_append, brun_frame' hb]
    simp only [brun] at h
    rw [brun_call hc] at h
    exact ih st st' h
  case callV =>
    intro H id params body args args' va b ts rest out _ hd _ _ _ _ _ _ _ _ _ _ _
    exact absurd (by simp) (hW.fn id _ body hd).1
  case anil => intro H _ a ha; simp at ha
  case acons =>
    intro H a a' as as' _ _ iha ihas h x hx
    rcases List.mem_cons.1 hx with rfl | hx
    · rw [argText_iff]; exact iha [] [] (argText_brun (h a List.mem_cons_self))
    · exact ihas (fun y hy => h y (List.mem_cons_of_mem _ hy)) x hx

theorem ExpandsAll.of_forall {nameOf : Str → Option Str} {D : Table} {H : List Str} :
    ∀ {as : List (List Item)}, (∀ a ∈ as, ∃ a', Expands nameOf D H a a') →
    ∃ as', ExpandsAll nameOf D H as as' ∧ ∀ a' ∈ as', ∃ a ∈ as, Expands nameOf D H a a' := by
  intro as
  induction as with
  | nil => intro _; exact ⟨[], .nil, by simp⟩
  | cons a as ih =>
    intro h
    obtain ⟨a', ha'⟩ := h a List.mem_cons_self
    obtain ⟨as', has', hm⟩ := ih (fun x hx => h x (List.mem_cons_of_mem _ hx))
    refine ⟨a' :: as', .cons ha' has', ?_⟩
    intro x hx
    rcases List.mem_cons.1 hx with rfl | hx
    · exact ⟨a, List.mem_cons_self, ha'⟩
    · obtain ⟨y, hy, hxy⟩ := hm x hx
      exact ⟨y, List.mem_cons_of_mem _ hy, hxy⟩

/-- Well-nested definitions: complete text always expands. -/
theorem expands_total {nameOf : Str → Option Str} {D : Table} (hW : WellNested nameOf D)
    {names : List Str} (hfin : ∀ id, D id ≠ none → id ∈ names) :
    ∀ k H ts, (names.filter (fun x => x ∉ H)).length < k → Complete D ts →
    ∃ out, Expands nameOf D H ts out := by
  intro k
  induction k with
  | zero => intro H ts hk; omega
  | succ k ihk =>
    intro H ts hk hts
    have hlt : ∀ {id d}, D id = some d → id ∉ H →
        (names.filter (fun x => x ∉ id :: H)).length < k := by
      intro id d hd hid
      have := filter_length_lt (hfin id (by simp [hd])) hid
      omega
    induction hts with
    | nil => exact ⟨[], .nil⟩
    | other _ ih => obtain ⟨out, h⟩ := ih; exact ⟨_, .other h⟩
    | painted _ ih => obtain ⟨out, h⟩ := ih; exact ⟨_, .painted h⟩
    | @name id ts hnf _ ih =>
      obtain ⟨out, h⟩ := ih
      by_cases hid : id ∈ H
      · exact ⟨_, .hidden hid h⟩
      · cases hd : D id with
        | none => exact ⟨_, .undefined hid hd h⟩
        | some d =>
          cases d with
          | fn p b => exact absurd hd (hnf p b)
          | var b =>
            obtain ⟨b', hb'⟩ := ihk (id :: H) _ (hlt hd hid) (hW.var id b hd).1
            exact ⟨_, .object hid hd hb' h⟩
    | @call id params body args ts rest hd hc har _ _ iha ih =>
      obtain ⟨out, h⟩ := ih
      by_cases hid : id ∈ H
      · obtain ⟨h1, h2, rfl⟩ := hc
        have hj : ∀ as : List (List Item), (∀ a ∈ as, ∃ a', Expands nameOf D H a a') →
            ∃ o, Expands nameOf D H (Spec.commaJoin as) o := by
          intro as
          induction as with
          | nil => intro _; exact ⟨[], .nil⟩
          | cons a as ih' =>
            intro h
            obtain ⟨oa, ha⟩ := h a List.mem_cons_self
            cases as with
            | nil => exact ⟨oa, ha⟩
            | cons b bs =>
              obtain ⟨ob, hb⟩ := ih' (fun x hx => h x (List.mem_cons_of_mem _ hx))
              rw [Spec.commaJoin]
              · exact ⟨_, Expands.append' ha (.other hb)⟩
              · simp
        obtain ⟨oj, hoj⟩ := hj args iha
        rw [List.cons_append]
        exact ⟨_, .hidden hid (.other (Expands.append' hoj (.other h)))⟩
      · obtain ⟨args', hargs', hmem⟩ := ExpandsAll.of_forall iha
        have hat : ∀ a' ∈ args', ArgText a' := by
          intro a' ha'
          obtain ⟨a, ha, hex⟩ := hmem a' ha'
          rw [argText_iff]
          exact expands_brun hW hex [] [] (argText_brun (hc.2.1 a ha))
        have hcomp : ∀ a' ∈ args', Complete D a' := by
          intro a' ha'
          obtain ⟨a, _, hex⟩ := hmem a' ha'
          exact complete_of_finished (expands_finished hex)
        obtain ⟨hell, hbc, hba⟩ := hW.fn id params body hd
        have : Complete D (Spec.subst nameOf params args' none body) := by
          rw [subst_eq_fill]
          exact fill_complete (fun p => argFor_all .nil hat p) (fun p => argFor_all .nil hcomp p) hbc
        obtain ⟨b', hb'⟩ := ihk (id :: H) _ (hlt hd hid) this
        exact ⟨_, .call hid hd hell hc har hargs' hb' h⟩

end CMacro
