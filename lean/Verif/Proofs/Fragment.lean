import Verif.Proofs.FinishInv
import Verif.Spec.Fragment

/-!
# Parameters that are identifiers
-/

namespace CMacro
open Spec

section
variable {C : Ctx} {L : Loc} {f : Expr → LState → Fin Expr}

/-- The parameter is known to be an identifier. -/
def LState.IsIdent (st : LState) (i : Nat) : Prop := st.argTypes[i]? = some .ident

theorem LState.Le.ident {st st' : LState} (h : st.Le st') {i : Nat} (hi : st.IsIdent i) : st'.IsIdent i := by
  obtain ⟨b, hb, hle⟩ := h.2.1 i _ hi
  rw [show b = .ident from hle] at hb
  exact hb

theorem setIdent {st : LState} {i : Nat} {a : ArgTy} (h : st.argTy i = some a) : (st.setArg i .ident).IsIdent i := by
  unfold LState.IsIdent LState.setArg
  rw [List.getElem?_set_self (List.getElem?_eq_some_iff.1 h).1]

theorem finishConcat_ident : ∀ {ids : List IdentCont} {st : LState} {i : Nat}, .arg i ∈ ids → (finishConcat ids st).2 = .ok () →
    (finishConcat ids st).1.IsIdent i
  | [], _, _, h, _ => by cases h
  | .plain _ :: ids, st, i, h, hr => by
    simp only [finishConcat] at hr ⊢
    exact finishConcat_ident (by simpa using h) hr
  | .int n :: ids, st, i, h, hr => by
    simp only [finishConcat] at hr
    split at hr <;> cases hr
  | .arg j :: ids, st, i, h, hr => by
    simp only [finishConcat] at hr ⊢
    split at hr
    · cases hr
    · rename_i a ha
      rcases List.mem_cons.1 h with h | h
      · cases h
        exact (finishConcat_st ids _).ident (setIdent ha)
      · exact finishConcat_ident h hr

theorem name_ident {n : IdentExpr} {st : LState} {i : Nat} (h : i ∈ pasteArgs n) (hr : (n.finish st).2 = .ok ()) : (n.finish st).1.IsIdent i := by
  cases n with
  | concat ids =>
    refine finishConcat_ident ?_ hr
    simp only [pasteArgs, List.mem_filterMap] at h
    obtain ⟨c, hc, h⟩ := h
    split at h
    · cases h; exact hc
    · cases h
  | _ => cases h

/-- Parameters in pasted names of types: marked, or there is an error and they are still there. -/
theorem ty_ident : ∀ {t : Ty} {st : LState} {i : Nat}, i ∈ tyPasted t →
    (t.finish C st).st.IsIdent i ∨ (∃ x, (t.finish C st).res = .error x) ∧ i ∈ tyPasted (t.finish C st).tree
  | .builtIn _, _, _, h => by cases h
  | .path _ _, _, _, h => by cases h
  | .ptr t, st, i, h => ty_ident (t := t) h
  | .qualified t q, st, i, h => ty_ident (t := t) h
  | .ident n s, st, i, h => by
    have hn : (n.finish st).2 = .ok () → (n.finish st).1.IsIdent i := fun hr => name_ident h hr
    simp only [Ty.finish]
    generalize hR : n.finish st = R at *
    rcases R with ⟨s', r | r⟩
    · exact .inr ⟨⟨_, rfl⟩, h⟩
    · simp only at hn ⊢
      split
      · cases h
      · exact .inl (hn trivial)

/-- What finishing does with parameters that are identifiers: they are marked, or there is an error and they are still there. -/
structure Marks (f : Expr → LState → Fin Expr) : Prop where
  le : ∀ (e : Expr) (st : LState), st.Le (f e st).st
  var : ∀ n st, (f (.var n) st).tree = .var n
  mark : ∀ e st i, i ∈ exprIdents e → (f e st).st.IsIdent i ∨ (∃ x, (f e st).res = .error x) ∧ i ∈ exprIdents (f e st).tree

theorem args_ident (h : Marks f) : ∀ (es : List Expr) (st : LState),
    st.Le (finishArgs f es st).2.1 ∧ ∀ i ∈ exprsIdents es,
      (finishArgs f es st).2.1.IsIdent i ∨ (∃ x, (finishArgs f es st).2.2 = .error x) ∧ i ∈ exprsIdents (finishArgs f es st).1
  | [], st => ⟨.refl st, fun i hi => by cases hi⟩
  | e :: es, st => by
    have hle := h.le e st
    have he := h.mark e st
    simp only [finishArgs]
    generalize f e st = R at *
    rcases R with ⟨x, s, r | r⟩
    · refine ⟨hle, fun i hi => ?_⟩
      rw [exprsIdents, List.mem_append] at hi
      rcases hi with hi | hi
      · rcases he i hi with h1 | h1
        · exact .inl h1
        · exact .inr ⟨⟨_, rfl⟩, by rw [exprsIdents, List.mem_append]; exact .inl h1.2⟩
      · exact .inr ⟨⟨_, rfl⟩, by rw [exprsIdents, List.mem_append]; exact .inr hi⟩
    · obtain ⟨h1, h2⟩ := args_ident h es s
      simp only at hle he ⊢
      refine ⟨hle.trans h1, fun i hi => ?_⟩
      rw [exprsIdents, List.mem_append] at hi
      rcases hi with hi | hi
      · rcases he i hi with h3 | ⟨⟨_, h3⟩, _⟩
        · exact .inl (h1.ident h3)
        · cases h3
      · rcases h2 i hi with h3 | h3
        · exact .inl h3
        · exact .inr ⟨h3.1, by rw [exprsIdents, List.mem_append]; exact .inr h3.2⟩

theorem parts_ident (h : Marks f) : ∀ (es : List Expr) (cur : Option (List UInt8)) (st : LState),
    st.Le (finishParts f es cur st).2.1 ∧ ∀ i ∈ exprsIdents es,
      (finishParts f es cur st).2.1.IsIdent i ∨ (∃ x, (finishParts f es cur st).2.2 = .error x) ∧ i ∈ exprsIdents (finishParts f es cur st).1
  | [], cur, st => ⟨.refl st, fun i hi => by cases hi⟩
  | e :: es, cur, st => by
    have hle := h.le e st
    have he := h.mark e st
    simp only [finishParts]
    generalize f e st = R at *
    have err : ∀ {x s err}, st.Le s → (∀ i ∈ exprIdents e, s.IsIdent i ∨ i ∈ exprIdents x) → st.Le (x :: es, s, (Except.error err : CgRes (List Expr))).2.1 ∧
        ∀ i ∈ exprsIdents (e :: es), (x :: es, s, (Except.error err : CgRes (List Expr))).2.1.IsIdent i ∨
          (∃ y, (x :: es, s, (Except.error err : CgRes (List Expr))).2.2 = .error y) ∧ i ∈ exprsIdents (x :: es, s, (Except.error err : CgRes (List Expr))).1 := by
      intro x s err hle he
      refine ⟨hle, fun i hi => ?_⟩
      rw [exprsIdents, List.mem_append] at hi
      rcases hi with hi | hi
      · rcases he i hi with h1 | h1
        · exact .inl h1
        · exact .inr ⟨⟨_, rfl⟩, by rw [exprsIdents, List.mem_append]; exact .inl h1⟩
      · exact .inr ⟨⟨_, rfl⟩, by rw [exprsIdents, List.mem_append]; exact .inr hi⟩
    rcases R with ⟨x, s, r | r⟩
    · exact err hle fun i hi => (he i hi).imp id (·.2)
    · have he' : ∀ i ∈ exprIdents e, s.IsIdent i := fun i hi => by
        rcases he i hi with h3 | ⟨⟨_, h3⟩, _⟩
        · exact h3
        · cases h3
      have next : ∀ {ps s' r}, s.Le s' → (∀ i ∈ exprsIdents es, s'.IsIdent i ∨ (∃ y, r = Except.error y) ∧ i ∈ exprsIdents ps) →
          st.Le (x :: ps, s', (r : CgRes (List Expr))).2.1 ∧ ∀ i ∈ exprsIdents (e :: es), (x :: ps, s', (r : CgRes (List Expr))).2.1.IsIdent i ∨
          (∃ y, (x :: ps, s', (r : CgRes (List Expr))).2.2 = .error y) ∧ i ∈ exprsIdents (x :: ps, s', (r : CgRes (List Expr))).1 := by
        intro ps s' r hs hm
        refine ⟨hle.trans hs, fun i hi => ?_⟩
        rw [exprsIdents, List.mem_append] at hi
        rcases hi with hi | hi
        · exact .inl (hs.ident (he' i hi))
        · rcases hm i hi with h3 | h3
          · exact .inl h3
          · exact .inr ⟨h3.1, by rw [exprsIdents, List.mem_append]; exact .inr h3.2⟩
      simp only at hle ⊢
      split
      · split
        · exact err hle fun i hi => .inl (he' i hi)
        · rename_i bs _
          have ih := parts_ident h es (some (cur.getD [] ++ bs)) s
          generalize finishParts f es (some (cur.getD [] ++ bs)) s = R at *
          exact next ih.1 ih.2
      · split
        · exact err hle fun i hi => .inl (he' i hi)
        · have ih := parts_ident h es none s
          generalize finishParts f es none s = R at *
          rcases R with ⟨q, s', r | r⟩
          · exact next ih.1 ih.2
          · refine next ih.1 fun i hi => ?_
            rcases ih.2 i hi with h3 | ⟨⟨_, h3⟩, _⟩
            · exact .inl h3
            · cases h3

theorem condition_ident (h : Marks f) : (∀ (e : Expr) (st : LState), st.Le (finishCondition f e st).st) ∧ ∀ e st i, i ∈ exprIdents e →
    (finishCondition f e st).st.IsIdent i ∨ (∃ x, (finishCondition f e st).res = .error x) ∧ i ∈ exprIdents (finishCondition f e st).tree := by
  constructor
  · intro e st
    have hle := h.le e st
    simp only [finishCondition]
    generalize f e st = R at *
    rcases R with ⟨x, s, r | r⟩
    · exact hle
    · simp only; split <;> exact hle
  · intro e st i hi
    have he := h.mark e st i hi
    simp only [finishCondition]
    generalize f e st = R at *
    rcases R with ⟨x, s, r | r⟩
    · exact he
    · have : s.IsIdent i := by
        rcases he with h3 | ⟨⟨_, h3⟩, _⟩
        · exact h3
        · cases h3
      simp only; split <;> exact .inl this

theorem product_idents {ty : Ty} {x e : Expr} (h : castAsProduct ty x = some e) {i : Nat} (hi : i ∈ exprIdents (.cast ty x)) : i ∈ exprIdents e := by
  unfold castAsProduct at h
  split at h
  · split at h
    · cases h
      simpa [exprIdents, memberArg, tyPasted, or_assoc] using hi
    · cases h
  · cases h

theorem binary_idents {ty : Ty} {x e : Expr} (h : castAsBinary C ty x = some e) {i : Nat} (hi : i ∈ exprIdents (.cast ty x)) : i ∈ exprIdents e := by
  unfold castAsBinary at h
  split at h
  · split at h
    · rename_i op _ _
      cases op <;> cases h
      all_goals simpa [exprIdents, memberArg, tyPasted] using hi
    · cases h
  · cases h

mutual
theorem all_triv : ∀ e : Expr, e.All fun _ => True
  | .var _ | .lit _ | .stringify _ | .sizeOf _ => trivial
  | .call _ as => ⟨trivial, allL_triv as⟩
  | .cast _ e => ⟨trivial, all_triv e⟩
  | .concatStr ps => ⟨trivial, allL_triv ps⟩
  | .un _ e => ⟨trivial, all_triv e⟩
  | .bin l _ r => ⟨trivial, all_triv l, all_triv r⟩
  | .ternary c t f => ⟨trivial, all_triv c, all_triv t, all_triv f⟩
theorem allL_triv : ∀ es : List Expr, Expr.AllL (fun _ => True) es
  | [] => trivial
  | e :: es => ⟨all_triv e, allL_triv es⟩
end

theorem node_triv (C : Ctx) (L : Loc) : NodeInv C L fun _ _ => True := by
  constructor <;> simp

theorem Marks.inv (h : Marks f) : Inv (fun _ _ => True) f := fun e st => ⟨h.le e st, fun _ _ => all_triv _⟩

theorem effects_ident {op : BinOp} {l r : Expr} {st : LState} {i : Nat} (hi : i ∈ memberArg op r) (h : (binaryEffects op l r st).2 = .ok ()) :
    (binaryEffects op l r st).1.IsIdent i := by
  unfold memberArg at hi
  split at hi
  · rename_i n
    cases n with
    | arg j =>
      simp only [selfArg, List.mem_singleton] at hi
      subst hi
      simp only [binaryEffects, Expr.asArg, if_true] at h ⊢
      split at h
      · cases h
      · rename_i s hs
        split at hs
        · cases hs
        · rename_i a ha
          cases hs
          simp only [BinOp.isAssignment]
          exact setIdent ha
    | _ => cases hi
  · cases hi

theorem member_var {op : BinOp} {r : Expr} {i : Nat} (hi : i ∈ memberArg op r) : ∃ n, r = .var n := by
  unfold memberArg at hi
  split at hi
  · exact ⟨_, rfl⟩
  · cases hi

theorem cast_ident (h : Marks f) (ty : Ty) (x : Expr) (st : LState) (i : Nat) (hi : i ∈ exprIdents (.cast ty x)) :
    (finishStep C L f (.cast ty x) st).st.IsIdent i ∨
      (∃ y, (finishStep C L f (.cast ty x) st).res = .error y) ∧ i ∈ exprIdents (finishStep C L f (.cast ty x) st).tree := by
  rw [exprIdents, List.mem_append] at hi
  have hs := Ty.finish_st C ty st
  have ht := ty_ident (C := C) (t := ty) (st := st) (i := i)
  simp only [finishStep]
  generalize ty.finish C st = R at *
  rcases R with ⟨ty', s, r | r⟩
  · simp only at hs ht ⊢
    have hi' : s.IsIdent i ∨ i ∈ exprIdents (.cast ty' x) := by
      rw [exprIdents, List.mem_append]
      rcases hi with hi | hi
      · exact (ht hi).imp id fun h => .inl h.2
      · exact .inr (.inr hi)
    split
    · rename_i e _ he
      rcases hi' with h1 | h1
      · exact .inl ((h.le e s).ident h1)
      · exact h.mark e s i (product_idents he h1)
    · exact hi'.imp id fun h => ⟨⟨_, rfl⟩, h⟩
  · have ht' : i ∈ tyPasted ty → s.IsIdent i := fun hi => by
      rcases ht hi with h3 | ⟨⟨_, h3⟩, _⟩
      · exact h3
      · cases h3
    simp only at hs ⊢
    have hl := h.le x s
    have hx := h.mark x s i
    generalize f x s = R at *
    rcases R with ⟨x', s', r | r⟩
    · simp only at hl hx ⊢
      have hi' : s'.IsIdent i ∨ i ∈ exprIdents (.cast ty' x') := by
        rw [exprIdents, List.mem_append]
        rcases hi with hi | hi
        · exact .inl (hl.ident (ht' hi))
        · exact (hx hi).imp id fun h => .inr h.2
      split
      · rename_i e _ he
        rcases hi' with h1 | h1
        · exact .inl ((h.le e s').ident h1)
        · exact h.mark e s' i (product_idents he h1)
      · exact hi'.imp id fun h => ⟨⟨_, rfl⟩, h⟩
    · have hi' : s'.IsIdent i := by
        rcases hi with hi | hi
        · exact hl.ident (ht' hi)
        · rcases hx hi with h3 | ⟨⟨_, h3⟩, _⟩
          · exact h3
          · cases h3
      simp only
      split
      · rename_i e _
        exact .inl ((h.le e s').ident hi')
      · split
        · exact .inl ((h.le x' s').ident hi')
        · exact .inl hi'

theorem call_ident (h : Marks f) (n : IdentExpr) (as : List Expr) (st : LState) (i : Nat) (hi : i ∈ exprIdents (.call n as)) :
    (finishStep C L f (.call n as) st).st.IsIdent i ∨
      (∃ y, (finishStep C L f (.call n as) st).res = .error y) ∧ i ∈ exprIdents (finishStep C L f (.call n as) st).tree := by
  simp only [finishStep]
  split
  · exact .inr ⟨⟨_, rfl⟩, hi⟩
  · have hn := name_ident (n := n) (st := st) (i := i)
    generalize n.finish st = R at *
    rcases R with ⟨s, r | r⟩
    · exact .inr ⟨⟨_, rfl⟩, hi⟩
    · simp only at hn ⊢
      rw [exprIdents, List.mem_append] at hi
      have ha := args_ident h as s
      generalize finishArgs f as s = R at *
      rcases R with ⟨as', s', r | r⟩
      · simp only at ha ⊢
        rcases hi with hi | hi
        · exact .inl (ha.1.ident (hn hi trivial))
        · exact (ha.2 i hi).imp id fun h => ⟨⟨_, rfl⟩, by rw [exprIdents, List.mem_append]; exact .inr h.2⟩
      · have hi' : s'.IsIdent i := by
          rcases hi with hi | hi
          · exact ha.1.ident (hn hi trivial)
          · rcases ha.2 i hi with h3 | ⟨⟨_, h3⟩, _⟩
            · exact h3
            · cases h3
        simp only
        have hc := finishCallee_st C n as' s'
        generalize finishCallee C n as' s' = R at *
        exact .inl (hc.ident hi')

theorem concat_ident (h : Marks f) (es : List Expr) (st : LState) (i : Nat) (hi : i ∈ exprIdents (.concatStr es)) :
    (finishStep C L f (.concatStr es) st).st.IsIdent i ∨
      (∃ y, (finishStep C L f (.concatStr es) st).res = .error y) ∧ i ∈ exprIdents (finishStep C L f (.concatStr es) st).tree := by
  rw [exprIdents] at hi
  have ha := (parts_ident h es none st).2 i hi
  simp only [finishStep]
  generalize finishParts f es none st = R at *
  rcases R with ⟨ps, s, r | r⟩
  · exact ha.imp id fun h => ⟨⟨_, rfl⟩, by rw [exprIdents]; exact h.2⟩
  · have ha' : s.IsIdent i := by
      rcases ha with h3 | ⟨⟨_, h3⟩, _⟩
      · exact h3
      · cases h3
    rcases r with _ | ⟨q, _ | ⟨q', l⟩⟩
    · exact .inl ha'
    · exact .inl ((h.le q s).ident ha')
    · exact .inl ha'

theorem un_ident (h : Marks f) (op : UnOp) (x : Expr) (st : LState) (i : Nat) (hi : i ∈ exprIdents (.un op x)) :
    (finishStep C L f (.un op x) st).st.IsIdent i ∨
      (∃ y, (finishStep C L f (.un op x) st).res = .error y) ∧ i ∈ exprIdents (finishStep C L f (.un op x) st).tree := by
  rw [exprIdents] at hi
  have hx := h.mark x st i hi
  simp only [finishStep]
  generalize f x st = R at *
  rcases R with ⟨x', s, r | r⟩
  · exact hx.imp id fun h => ⟨⟨_, rfl⟩, by rw [exprIdents]; exact h.2⟩
  · have hx' : s.IsIdent i := by
      rcases hx with h3 | ⟨⟨_, h3⟩, _⟩
      · exact h3
      · cases h3
    simp only
    repeat' split
    all_goals exact .inl hx'

theorem bin_ident (h : Marks f) (l : Expr) (op : BinOp) (x : Expr) (st : LState) (i : Nat) (hi : i ∈ exprIdents (.bin l op x)) :
    (finishStep C L f (.bin l op x) st).st.IsIdent i ∨
      (∃ y, (finishStep C L f (.bin l op x) st).res = .error y) ∧ i ∈ exprIdents (finishStep C L f (.bin l op x) st).tree := by
  rw [exprIdents, List.mem_append, List.mem_append] at hi
  have hl := h.mark l st i
  simp only [finishStep]
  generalize f l st = R at *
  rcases R with ⟨l', s, r | r⟩
  · simp only at hl ⊢
    rw [exprIdents, List.mem_append, List.mem_append]
    rcases hi with hi | hi | hi
    · exact .inr ⟨⟨_, rfl⟩, .inl hi⟩
    · exact (hl hi).imp id fun h => ⟨⟨_, rfl⟩, .inr (.inl h.2)⟩
    · exact .inr ⟨⟨_, rfl⟩, .inr (.inr hi)⟩
  · have hl' : i ∈ exprIdents l → s.IsIdent i := fun hi => by
      rcases hl hi with h3 | ⟨⟨_, h3⟩, _⟩
      · exact h3
      · cases h3
    simp only
    have hle := h.le x s
    have hx := h.mark x s i
    have hm : i ∈ memberArg op x → i ∈ memberArg op (f x s).tree := fun hi => by
      obtain ⟨n, rfl⟩ := member_var hi
      rw [h.var]; exact hi
    generalize f x s = R at *
    rcases R with ⟨x', s', r' | r'⟩
    · simp only at hle hx hm ⊢
      rw [exprIdents, List.mem_append, List.mem_append]
      rcases hi with hi | hi | hi
      · exact .inr ⟨⟨_, rfl⟩, .inl (hm hi)⟩
      · exact .inl (hle.ident (hl' hi))
      · exact (hx hi).imp id fun h => ⟨⟨_, rfl⟩, .inr (.inr h.2)⟩
    · have hi' : s'.IsIdent i ∨ i ∈ memberArg op x' := by
        rcases hi with hi | hi | hi
        · exact .inr (hm hi)
        · exact .inl (hle.ident (hl' hi))
        · rcases hx hi with h3 | ⟨⟨_, h3⟩, _⟩
          · exact .inl h3
          · cases h3
      simp only
      have hb := binaryEffects_st op l' x' s'
      have he := effects_ident (op := op) (l := l') (r := x') (st := s') (i := i)
      generalize binaryEffects op l' x' s' = R at *
      rcases R with ⟨s2, r2 | r2⟩
      · simp only at hb ⊢
        rcases hi' with h1 | h1
        · exact .inl (hb.ident h1)
        · exact .inr ⟨⟨_, rfl⟩, by rw [exprIdents, List.mem_append]; exact .inl h1⟩
      · have : s2.IsIdent i := by
          rcases hi' with h1 | h1
          · exact hb.ident h1
          · exact he h1 rfl
        simp only
        split
        · exact .inl this
        · split
          · exact .inl this
          · rename_i e _
            exact .inl ((h.le e s2).ident this)
          · exact .inl this

theorem ternary_ident (h : Marks f) (c t u : Expr) (st : LState) (i : Nat) (hi : i ∈ exprIdents (.ternary c t u)) :
    (finishStep C L f (.ternary c t u) st).st.IsIdent i ∨
      (∃ y, (finishStep C L f (.ternary c t u) st).res = .error y) ∧ i ∈ exprIdents (finishStep C L f (.ternary c t u) st).tree := by
  rw [exprIdents, List.mem_append, List.mem_append] at hi
  have hc := (condition_ident h).2 c st i
  simp only [finishStep]
  generalize finishCondition f c st = R at *
  rcases R with ⟨c', s, r | r⟩
  · simp only at hc ⊢
    rw [exprIdents, List.mem_append, List.mem_append]
    rcases hi with hi | hi | hi
    · exact (hc hi).imp id fun h => ⟨⟨_, rfl⟩, .inl h.2⟩
    · exact .inr ⟨⟨_, rfl⟩, .inr (.inl hi)⟩
    · exact .inr ⟨⟨_, rfl⟩, .inr (.inr hi)⟩
  · have hc' : i ∈ exprIdents c → s.IsIdent i := fun hi => by
      rcases hc hi with h3 | ⟨⟨_, h3⟩, _⟩
      · exact h3
      · cases h3
    simp only
    have hle := h.le t s
    have ht := h.mark t s i
    generalize f t s = R at *
    rcases R with ⟨t', s', r' | r'⟩
    · simp only at hle ht ⊢
      rw [exprIdents, List.mem_append, List.mem_append]
      rcases hi with hi | hi | hi
      · exact .inl (hle.ident (hc' hi))
      · exact (ht hi).imp id fun h => ⟨⟨_, rfl⟩, .inr (.inl h.2)⟩
      · exact .inr ⟨⟨_, rfl⟩, .inr (.inr hi)⟩
    · have ht' : i ∈ exprIdents t → s'.IsIdent i := fun hi => by
        rcases ht hi with h3 | ⟨⟨_, h3⟩, _⟩
        · exact h3
        · cases h3
      simp only
      have hle2 := h.le u s'
      have hu := h.mark u s' i
      generalize f u s' = R at *
      rcases R with ⟨u', s2, r2 | r2⟩
      · simp only at hle hle2 hu ⊢
        rw [exprIdents, List.mem_append, List.mem_append]
        rcases hi with hi | hi | hi
        · exact .inl (hle2.ident (hle.ident (hc' hi)))
        · exact .inl (hle2.ident (ht' hi))
        · exact (hu hi).imp id fun h => ⟨⟨_, rfl⟩, .inr (.inr h.2)⟩
      · rcases hi with hi | hi | hi
        · exact .inl (hle2.ident (hle.ident (hc' hi)))
        · exact .inl (hle2.ident (ht' hi))
        · rcases hu hi with h3 | ⟨⟨_, h3⟩, _⟩
          · exact .inl h3
          · cases h3

theorem step_ident (h : Marks f) : Marks (finishStep C L f) := by
  refine ⟨fun e st => (finishStep_inv (node_triv C L) h.inv e st).1, fun n st => rfl, fun e st i hi => ?_⟩
  cases e with
  | lit l => cases hi
  | stringify n => cases hi
  | var n =>
    simp only [finishStep, finishVar]
    have hn := name_ident (n := n) (st := st) (i := i) hi
    generalize n.finish st = R at *
    rcases R with ⟨s, r | r⟩
    · exact .inr ⟨⟨_, rfl⟩, hi⟩
    · simp only at hn ⊢
      repeat' split
      all_goals exact .inl (hn trivial)
  | sizeOf t =>
    have ht := ty_ident (C := C) (t := t) (st := st) (i := i) hi
    simp only [finishStep]
    generalize t.finish C st = R at *
    rcases R with ⟨t', s, r | r⟩
    · exact ht.imp id fun h => ⟨⟨_, rfl⟩, h.2⟩
    · rcases ht with h3 | ⟨⟨_, h3⟩, _⟩
      · exact .inl h3
      · cases h3
  | cast t x => exact cast_ident h t x st i hi
  | call n as => exact call_ident h n as st i hi
  | concatStr es => exact concat_ident h es st i hi
  | un op x => exact un_ident h op x st i hi
  | bin l op r => exact bin_ident h l op r st i hi
  | ternary c t u => exact ternary_ident h c t u st i hi

theorem expr_ident : ∀ n, Marks (Expr.finish C L n)
  | 0 => ⟨fun _ st => .refl st, fun _ _ => rfl, fun _ _ _ hi => .inr ⟨⟨_, rfl⟩, hi⟩⟩
  | n + 1 => step_ident (expr_ident n)

/-! ## Statements -/

theorem Marks.ok (h : Marks f) {e : Expr} {st : LState} {t : Option Ty} (hr : (f e st).res = .ok t) : ∀ i ∈ exprIdents e, (f e st).st.IsIdent i := by
  intro i hi
  rcases h.mark e st i hi with h3 | ⟨⟨_, h3⟩, _⟩
  · exact h3
  · rw [hr] at h3; cases h3

theorem condition_ok (h : Marks f) {e : Expr} {st : LState} {t : Option Ty} (hr : (finishCondition f e st).res = .ok t) :
    ∀ i ∈ exprIdents e, (finishCondition f e st).st.IsIdent i := by
  intro i hi
  rcases (condition_ident h).2 e st i hi with h3 | ⟨⟨_, h3⟩, _⟩
  · exact h3
  · rw [hr] at h3; cases h3

theorem tyMark_ok {t : Ty} {st : LState} {u : Option Ty} (hr : (t.finish C st).res = .ok u) : ∀ i ∈ tyPasted t, (t.finish C st).st.IsIdent i := by
  intro i hi
  rcases ty_ident (C := C) (st := st) hi with h3 | ⟨⟨_, h3⟩, _⟩
  · exact h3
  · rw [hr] at h3; cases h3

theorem outputs_ident (h : Marks f) : ∀ (os : List (Dir × RegConstraint × Expr)) (st : LState), (finishOutputs f os st).2.2 = .ok () →
    ∀ i ∈ os.flatMap (fun o => exprIdents o.2.2), (finishOutputs f os st).2.1.IsIdent i
  | [], _, _, i, hi => by cases hi
  | (d, c, e) :: os, st, hr, i, hi => by
    simp only [List.flatMap_cons, List.mem_append] at hi
    simp only [finishOutputs] at hr ⊢
    have he := @Marks.ok f h e st
    generalize f e st = R at *
    rcases R with ⟨x, s, r | r⟩
    · cases hr
    · simp only at hr ⊢
      rcases hi with hi | hi
      · exact (finishOutputs_inv (node_triv (.unit asciiEnv) ⟨[], false, false, false⟩) h.inv os s).1.ident (he rfl i hi)
      · exact outputs_ident h os s hr i hi

theorem inputs_ident (h : Marks f) : ∀ (os : List (RegConstraint × Expr)) (st : LState), (finishInputs f os st).2.2 = .ok () →
    ∀ i ∈ os.flatMap (fun o => exprIdents o.2), (finishInputs f os st).2.1.IsIdent i
  | [], _, _, i, hi => by cases hi
  | (c, e) :: os, st, hr, i, hi => by
    simp only [List.flatMap_cons, List.mem_append] at hi
    simp only [finishInputs] at hr ⊢
    have he := @Marks.ok f h e st
    generalize f e st = R at *
    rcases R with ⟨x, s, r | r⟩
    · cases hr
    · simp only at hr ⊢
      rcases hi with hi | hi
      · exact (finishInputs_inv (node_triv (.unit asciiEnv) ⟨[], false, false, false⟩) h.inv os s).1.ident (he rfl i hi)
      · exact inputs_ident h os s hr i hi

theorem declArgs_ident : ∀ (as : List (Ty × IdentExpr)) (st : LState), (finishDeclArgs C as st).2.2 = .ok () →
    ∀ i ∈ as.flatMap (fun a => tyPasted a.1), (finishDeclArgs C as st).2.1.IsIdent i
  | [], _, _, i, hi => by cases hi
  | (t, n) :: as, st, hr, i, hi => by
    simp only [List.flatMap_cons, List.mem_append] at hi
    simp only [finishDeclArgs] at hr ⊢
    have he := @tyMark_ok C t st
    generalize t.finish C st = R at *
    rcases R with ⟨x, s, r | r⟩
    · cases hr
    · simp only at hr ⊢
      rcases hi with hi | hi
      · exact (finishDeclArgs_st C as s).ident (he rfl i hi)
      · exact declArgs_ident as s hr i hi

theorem fnDecl_ident (d : FunctionDecl) (st : LState) (hr : (d.finish C st).2.2 = .ok ()) :
    ∀ i ∈ stmtIdents (.fnDecl d), (d.finish C st).2.1.IsIdent i := by
  intro i hi
  rw [stmtIdents, List.mem_append, List.mem_append] at hi
  simp only [FunctionDecl.finish] at hr ⊢
  have he := @tyMark_ok C d.retTy st
  generalize d.retTy.finish C st = R at *
  rcases R with ⟨x, s, r | r⟩
  · cases hr
  · have he' := he rfl i
    simp only at hr he' ⊢
    cases hd : d.name with
    | arg j =>
      simp only [hd] at hr hi ⊢
      cases ha : s.argTy j with
      | none => simp [ha] at hr
      | some a =>
        simp only [ha] at hr ⊢
        have hle := LState.le_setArg ha (ArgTy.le_ident a)
        have hd := declArgs_ident d.args (s.setArg j .ident) hr i
        rcases hi with hi | hi | hi
        · exact (finishDeclArgs_st C d.args _).ident (hle.ident (he' hi))
        · simp only [selfArg, List.mem_singleton] at hi
          subst hi
          exact (finishDeclArgs_st C d.args _).ident (setIdent ha)
        · exact hd hi
    | _ =>
      simp only [hd, selfArg] at hr hi ⊢
      rcases hi with hi | hi | hi
      · exact (finishDeclArgs_st C d.args _).ident (he' hi)
      · cases hi
      · exact declArgs_ident d.args s hr i hi

theorem varDecl_ident (h : Marks f) (d : VarDecl) (st : LState) (hr : (d.finish C f st).2.2 = .ok ()) :
    ∀ i ∈ stmtIdents (.varDecl d), (d.finish C f st).2.1.IsIdent i := by
  intro i hi
  rw [stmtIdents, List.mem_append, List.mem_append] at hi
  simp only [VarDecl.finish] at hr ⊢
  have he := @tyMark_ok C d.ty st
  generalize d.ty.finish C st = R at *
  rcases R with ⟨x, s, r | r⟩
  · cases hr
  · have he' := he rfl i
    simp only at hr he' ⊢
    have hle := IdentExpr.finish_st d.name s
    have hn := @name_ident d.name s i
    generalize d.name.finish s = R at *
    rcases R with ⟨s', r' | r'⟩
    · cases hr
    · simp only at hr hle hn ⊢
      have hle2 := h.le d.rhs s'
      have hx := @Marks.ok f h d.rhs s'
      generalize f d.rhs s' = R at *
      rcases R with ⟨y, s2, r2 | r2⟩
      · cases hr
      · simp only at hle2 ⊢
        rcases hi with hi | hi | hi
        · exact hle2.ident (hle.ident (he' hi))
        · exact hle2.ident (hn hi trivial)
        · exact hx rfl i hi

mutual
theorem stmt_ident (h : Marks f) : ∀ (s : Stmt) (st : LState), (s.finish C f st).2.2 = .ok () →
    ∀ i ∈ stmtIdents s, (s.finish C f st).2.1.IsIdent i
  | .asm a, st, hr, i, hi => by
    rw [stmtIdents, List.mem_append] at hi
    simp only [Stmt.finish, Asm.finish] at hr ⊢
    have ho := outputs_ident h a.outputs st
    generalize finishOutputs f a.outputs st = R at *
    rcases R with ⟨os, s, r | r⟩
    · cases hr
    · simp only at hr ho ⊢
      have hle := (finishInputs_inv (node_triv C ⟨[], false, false, false⟩) h.inv a.inputs s).1
      have hn := inputs_ident h a.inputs s
      generalize finishInputs f a.inputs s = R at *
      rcases R with ⟨ns, s', r | r⟩
      · cases hr
      · simp only at hle hn ⊢
        have : s'.IsIdent i := by
          rcases hi with hi | hi
          · exact hle.ident (ho trivial i hi)
          · exact hn trivial i hi
        split
        · exact (LState.le_export s').ident this
        · exact this
  | .expr e, st, hr, i, hi => by
    rw [stmtIdents] at hi
    simp only [Stmt.finish] at hr ⊢
    have he := @Marks.ok f h e st
    generalize f e st = R at *
    rcases R with ⟨x, s, r | r⟩
    · cases hr
    · exact he rfl i hi
  | .fnDecl d, st, hr, i, hi => fnDecl_ident d st hr i hi
  | .varDecl d, st, hr, i, hi => varDecl_ident h d st hr i hi
  | .block ss, st, hr, i, hi => by
    rw [stmtIdents] at hi
    exact stmts_ident h ss st hr i hi
  | .ite c t u, st, hr, i, hi => by
    rw [stmtIdents, List.mem_append, List.mem_append] at hi
    simp only [Stmt.finish] at hr ⊢
    have he := @condition_ok f h c st
    generalize finishCondition f c st = R at *
    rcases R with ⟨x, s, r | r⟩
    · cases hr
    · have he' := he rfl i
      simp only at hr he' ⊢
      have hle := (Stmt.finishL_inv (node_triv C ⟨[], false, false, false⟩) h.inv t s).1
      have ht := stmts_ident h t s
      generalize Stmt.finishL C f t s = R at *
      rcases R with ⟨y, s', r' | r'⟩
      · cases hr
      · simp only at hr ht hle ⊢
        have hle2 := (Stmt.finishL_inv (node_triv C ⟨[], false, false, false⟩) h.inv u s').1
        have hu := stmts_ident h u s'
        generalize Stmt.finishL C f u s' = R at *
        rcases hi with hi | hi | hi
        · exact hle2.ident (hle.ident (he' hi))
        · exact hle2.ident (ht trivial i hi)
        · exact hu hr i hi
  | .doWhile b c, st, hr, i, hi => by
    rw [stmtIdents, List.mem_append] at hi
    simp only [Stmt.finish] at hr ⊢
    have hb := stmts_ident h b st
    generalize Stmt.finishL C f b st = R at *
    rcases R with ⟨y, s, r | r⟩
    · cases hr
    · simp only at hr hb ⊢
      have hle := (condition_ident h).1 c s
      have hc := @condition_ok f h c s
      generalize finishCondition f c s = R at *
      rcases R with ⟨z, s', r' | r'⟩
      · cases hr
      · rcases hi with hi | hi
        · exact hle.ident (hb trivial i hi)
        · exact hc rfl i hi
theorem stmts_ident (h : Marks f) : ∀ (ss : List Stmt) (st : LState), (Stmt.finishL C f ss st).2.2 = .ok () →
    ∀ i ∈ stmtsIdents ss, (Stmt.finishL C f ss st).2.1.IsIdent i
  | [], _, _, i, hi => by cases hi
  | s :: ss, st, hr, i, hi => by
    rw [stmtsIdents, List.mem_append] at hi
    simp only [Stmt.finishL] at hr ⊢
    have hs := stmt_ident h s st
    generalize s.finish C f st = R at *
    rcases R with ⟨x, s', r | r⟩
    · cases hr
    · simp only at hr hs ⊢
      have hle := (Stmt.finishL_inv (node_triv C ⟨[], false, false, false⟩) h.inv ss s').1
      have ih := stmts_ident h ss s'
      generalize Stmt.finishL C f ss s' = R at *
      rcases hi with hi | hi
      · exact hle.ident (hs trivial i hi)
      · exact ih hr i hi
end

theorem body_ident (h : Marks f) (b : MacroBody) (st : LState) {t : Option Ty} (hr : (b.finish C f st).res = .ok t) :
    ∀ i ∈ bodyIdents b, (b.finish C f st).st.IsIdent i := by
  intro i hi
  cases b with
  | expr e => exact h.ok hr i hi
  | stmt s =>
    have hs := stmt_ident (C := C) h s st
    simp only [MacroBody.finish] at hr ⊢
    generalize s.finish C f st = R at *
    rcases R with ⟨x, s', r | r⟩
    · cases hr
    · exact hs rfl i hi

end

end CMacro
