import Verif.Proofs.Nested
import Verif.Proofs.Terminate
import Verif.Spec.FnExpand

/-! # Function-like macros on their own -/

namespace CMacro
open Spec (Item Table Def Op Expands ExpandsAll Call)

variable {E : Env} {ms : MacroSet}

theorem nameOf_varArgs : nameOf E c!"__VA_ARGS__" = none := by simp [nameOf]

theorem openBody_tok (ps : Params E) (tail : List Token) (ht : tail = [] ∨ tail = [.punct c!"..."]) (body : List Str) :
    tokenize E (ps.names.map Token.ident ++ tail) body = (Spec.openBody (nameOf E) ps.names body).map (tokIn ps) := by
  simp only [tokenize, Spec.openBody, List.map_map]
  apply List.map_congr_left
  intro s _
  rw [tokenizeOne_params _ _ _ ht]
  simp only [Function.comp]
  by_cases h : s ∈ ps.names
  · rw [if_pos h]
    rfl
  · rw [if_neg h, tokOf_item, paramIndex_none.2 h]

theorem openBody_ok (ps : Params E) {body : List Str} (hb : ∀ s ∈ body, Spec.PlainSpelling s)
    (hv : c!"__VA_ARGS__" ∈ body → ps.variadic = true) : OkIns ps (Spec.openBody (nameOf E) ps.names body) := by
  intro t ht
  obtain ⟨s, hs, rfl⟩ := List.mem_map.1 ht
  by_cases h : s ∈ ps.names
  · simp only [if_pos h]
    cases hi : Spec.paramIndex ps.names s with
    | none => exact absurd h (paramIndex_none.1 hi)
    | some i =>
      simp only [OkIn, tokIn, hi]
      exact ⟨by simp, fun _ => .inl h, by simp, (hb s hs).1, (hb s hs).2.1⟩
  · simp only [if_neg h]
    by_cases hva : s = c!"__VA_ARGS__"
    · subst hva
      simp only [Spec.item, nameOf_varArgs, OkIn, tokIn_other nameOf_varArgs, fromStr_varArgs.2]
      exact ⟨by simp, fun _ => .inr (hv hs), by simp, by decide, by decide⟩
    · exact PlainSpelling.item (hb s hs) hva

theorem detokenize_in (ps : Params E) {k : Nat} (hk : k = ps.names.length + if ps.variadic then 1 else 0) :
    ∀ {out : List Item} {toks : List MacroToken}, OkIns ps out → out.map (outToken E ps.names) = toks.map some →
    detokenize k (out.map (tokIn ps)) = .ok toks
  | [], [], _, _ => rfl
  | [], _ :: _, _, h => by simp at h
  | _ :: _, [], _, h => by simp at h
  | i :: out, m :: toks, ho, h => by
    simp only [List.map_cons, List.cons.injEq] at h
    have ih := detokenize_in ps hk (fun t ht => ho t (List.mem_cons_of_mem _ ht)) h.2
    have hi : (tokIn ps i).detokenize k = .ok (some m) := by
      have h1 := h.1
      have h0 := ho i List.mem_cons_self
      cases i with
      | name id p =>
        simp only [outToken, Option.some.injEq] at h1
        subst h1
        cases p <;> rfl
      | other s =>
        simp only [outToken] at h1
        simp only [OkIn, tokIn] at h0
        simp only [tokIn]
        cases hp : Spec.paramIndex ps.names s with
        | some j =>
          rw [hp] at h1
          simp only [Option.some.injEq] at h1
          subst h1
          rfl
        | none =>
          simp only [hp] at h1 h0 ⊢
          by_cases hv : s = c!"__VA_ARGS__"
          · rw [if_pos hv] at h1
            rw [fromStr_varArgs.2 hv] at h0 ⊢
            have := (h0.2.1 rfl).resolve_left (paramIndex_none.1 hp)
            rw [hk, if_pos this]
            simp only [Option.some.injEq] at h1
            subst h1
            simp [Token.detokenize]
          · rw [if_neg hv] at h1
            have hna : (Token.fromStr E s).isArg = false := by
              cases hi : (Token.fromStr E s).isArg with
              | false => rfl
              | true => exact absurd (fromStr_isArg.1 hi) hv
            have h2 := classify_some h1
            have hnr := fromStr_ne_nonRepl E s
            generalize Token.fromStr E s = t at *
            cases t with
            | nonRepl t => exact absurd rfl (hnr t)
            | plain x => simp [Token.detokenize] at h2
            | varArgs => simp [Token.isArg] at hna
            | _ => exact h2
    simp only [List.map_cons, detokenize, hi, ih]
    rfl

theorem expandFn_runs (L : E.Lawful) {D : Table} (hD : Agrees ms D)
    (hP : Spec.Plain (nameOf E) D) {f : Str} {named body : List Str} {variadic : Bool}
    (hdef : D f = some (.fn (named ++ if variadic then [c!"..."] else []) body)) (hell : c!"..." ∉ named) {out : List Item}
    (h : Expands (nameOf E) D [f] (Spec.openBody (nameOf E) named body) out) :
    ∃ (ps : Params E) (N : Nat), ps.names = named ∧ ps.variadic = variadic ∧ OkIns ps out ∧
      ms.expandFn E N f = (match detokenize (named.length + if variadic then 1 else 0) (out.map (tokIn ps)) with
        | .error e => .error e
        | .ok toks => .ok (named.map .ident ++ (if variadic then [.punct c!"..."] else []), toks)) := by
  obtain ⟨hb, hbv, named', hpar, hnd, hnm⟩ := hP.fn f _ body hdef
  have hn : named' = named := by
    cases variadic with
    | false =>
      simp only [Bool.false_eq_true, if_false, List.append_nil] at hpar
      rcases hpar with h | h
      · exact h.symm
      · exact absurd (by rw [h]; simp) hell
    | true =>
      simp only [if_true] at hpar
      rcases hpar with h | h
      · exact absurd rfl (hnm c!"..." (by rw [← h]; simp)).2
      · exact (List.append_cancel_right h).symm
  subst hn
  let ps : Params E := ⟨named', variadic, fun p hp => (hnm p hp).1⟩
  let tail : List Token := if variadic then [.punct c!"..."] else []
  have htail : tail = [] ∨ tail = [.punct c!"..."] := by cases variadic <;> simp [tail]
  have hnames : tokenizeArgNames E (named' ++ if variadic then [c!"..."] else []) =
      .ok (named'.map Token.ident ++ tail) := by
    cases variadic with
    | false => simpa [tail] using tokenizeArgNames_named hnd (fun p hp => (hnm p hp).1)
    | true => simpa [tail] using tokenizeArgNames_variadic L hnd (fun p hp => (hnm p hp).1)
  have hv : c!"__VA_ARGS__" ∈ body → variadic = true := by
    intro hm
    cases variadic with
    | true => rfl
    | false =>
      have := hbv hm
      simp only [Bool.false_eq_true, if_false, List.append_nil] at this
      exact absurd this hell
  have hok := openBody_ok ps hb hv
  have hS : SameHidden (setInsert [] f) [f] := by
    intro id hid; simp [setInsert]
  obtain ⟨h1, _, h3⟩ := expands_good (ps := ps) L hD hP h _ hS hok
  obtain ⟨N, hN⟩ := h3.nil_pre
  have hfn : ms.fn.get f = some (named' ++ (if variadic then [c!"..."] else []), body) := by rw [(hD f).2, hdef]
  have hbody : expandFnMacroBody E (expandMacroBody E ms N) [] f
      (named'.map Token.ident ++ tail) none (tokenize E (named'.map Token.ident ++ tail) body) = .ok (out.map (tokIn ps)) := by
    rw [openBody_tok ps tail htail]
    unfold expandFnMacroBody
    simp only [filter_notComment _ _ htail]
    rw [if_neg, if_neg, filterMap_paramName, firstDuplicate_none]
    · simp only
      rw [expandConcat_tok hok]
      simp only [removePlacemarkers_tok]
      exact hN N (Nat.le_refl _)
    · rcases htail with h | h
      · rw [h]; simpa using hnd
      · rw [h]
        simp only [List.filterMap_cons, Token.paramName, List.filterMap_nil]
        rw [List.nodup_append]
        refine ⟨hnd, by simp, fun a ha' b hb' hab => ?_⟩
        simp only [List.mem_singleton] at hb'
        exact hell (hb' ▸ hab ▸ ha')
    · simp
    · intro hc
      simp only [Bool.and_eq_true, Bool.not_eq_true'] at hc
      have hnv : c!"__VA_ARGS__" ∉ body := by
        intro hm
        have := hv hm
        subst this
        simp [tail, isVariadic] at hc
      have := containsVarArgs_false (E := E) (params := named') htail hnv
      rw [openBody_tok ps tail htail] at this
      rw [this] at hc
      simp at hc
  have hlen : (named'.map Token.ident ++ tail).length = named'.length + if variadic then 1 else 0 := by
    cases variadic <;> simp [tail]
  have hpar : detokenize 0 (named'.map Token.ident ++ tail) =
      .ok (named'.map MacroToken.ident ++ (if variadic then [.punct c!"..."] else [])) := by
    apply detokenize_map
    cases variadic <;> simp [tail, Token.detokenize]
  refine ⟨ps, N, rfl, rfl, h1, ?_⟩
  simp only [MacroSet.expandFn, hfn, hnames, hbody, hpar, hlen]
  rfl

theorem expandFn_of_expands (L : E.Lawful) {D : Table} (hD : Agrees ms D)
    (hP : Spec.Plain (nameOf E) D) {f : Str} {named body : List Str} {variadic : Bool}
    (hdef : D f = some (.fn (named ++ if variadic then [c!"..."] else []) body)) (hell : c!"..." ∉ named) {out : List Item}
    (h : Expands (nameOf E) D [f] (Spec.openBody (nameOf E) named body) out) {toks : List MacroToken}
    (hr : out.map (outToken E named) = toks.map some) :
    Returns (fun n => ms.expandFn E n f) (.ok (named.map .ident ++ (if variadic then [.punct c!"..."] else []), toks)) := by
  obtain ⟨ps, N, rfl, rfl, hok, hN⟩ := expandFn_runs L hD hP hdef hell h
  refine ⟨by simp, N, ?_⟩
  simp only [hN, detokenize_in ps rfl hok hr]

/-! ## Arguments in place of parameters -/

open Spec (ArgText Balanced Brackets IsBracket)

/-- Put the arguments in place of the parameters. -/
def put (params : List Str) (args : List (List Item)) : Item → List Item
  | .other s => match Spec.paramIndex params s with
    | some i => args.getD i []
    | none => [.other s]
  | .name id p => [.name id p]

/-- Names that are no brackets. -/
def Wordy (nameOf : Str → Option Str) (params : List Str) : Prop :=
  ∀ p ∈ params, nameOf p ≠ none ∧ ¬ IsBracket p ∧ p ≠ c!","

theorem put_other {params : List Str} {args : List (List Item)} {s : Str} (h : s ∉ params) : put params args (.other s) = [.other s] := by
  simp only [put, paramIndex_none.2 h]

theorem put_all {Q : List Item → Prop} (hnil : Q []) {params : List Str} {args : List (List Item)} (h : ∀ a ∈ args, Q a) (i : Nat) :
    Q (args.getD i []) := by
  rw [List.getD_eq_getElem?_getD]
  cases hg : args[i]? with
  | none => exact hnil
  | some a => exact h a (List.mem_of_getElem? hg)

theorem balanced_append {a b : List Item} (ha : Balanced a) (hb : Balanced b) : Balanced (a ++ b) := by
  induction ha with
  | nil => exact hb
  | name _ ih => exact .name ih
  | other h _ ih => exact .other h ih
  | @group o c inner ts h hi _ _ ih =>
    have := Balanced.group h hi ih
    simpa using this

theorem argText_balanced {a : List Item} (h : ArgText a) : Balanced a := by
  induction h with
  | nil => exact .nil
  | name _ ih => exact .name ih
  | other h _ _ ih => exact .other h ih
  | group h hi _ ih => exact .group h hi ih

theorem brackets_bracket {o c : Str} (h : Brackets o c) : IsBracket o ∧ IsBracket c := by
  rcases h with ⟨rfl, rfl⟩ | ⟨rfl, rfl⟩ | ⟨rfl, rfl⟩ <;> simp [IsBracket]

section
variable {nameOf : Str → Option Str} {params : List Str} {args : List (List Item)}

theorem put_bracket (hw : Wordy nameOf params) {s : Str} (h : IsBracket s ∨ s = c!",") : put params args (.other s) = [.other s] :=
  put_other fun hm => h.elim (hw s hm).2.1 (hw s hm).2.2

theorem put_balanced (hw : Wordy nameOf params) (ha : ∀ a ∈ args, ArgText a) {ts : List Item} (h : Balanced ts) :
    Balanced (ts.flatMap (put params args)) := by
  induction h with
  | nil => exact .nil
  | name _ ih => exact .name ih
  | @other s ts hb _ ih =>
    rw [List.flatMap_cons]
    refine balanced_append ?_ ih
    simp only [put]
    split
    · exact argText_balanced (put_all (Q := ArgText) .nil (params := params) ha _)
    · exact .other hb .nil
  | @group o c inner ts hb _ _ ih1 ih2 =>
    have h1 := put_bracket (args := args) hw (.inl (brackets_bracket hb).1)
    have h2 := put_bracket (args := args) hw (.inl (brackets_bracket hb).2)
    have := Balanced.group hb ih1 ih2
    simpa [List.flatMap_append, h1, h2] using this

theorem put_argText (hw : Wordy nameOf params) (ha : ∀ a ∈ args, ArgText a) {ts : List Item} (h : ArgText ts) :
    ArgText (ts.flatMap (put params args)) := by
  induction h with
  | nil => exact .nil
  | name _ ih => exact .name ih
  | @other s ts hb hc _ ih =>
    rw [List.flatMap_cons]
    refine ArgText.append ?_ ih
    simp only [put]
    split
    · exact put_all (Q := ArgText) .nil (params := params) ha _
    · exact .other hb hc .nil
  | @group o c inner ts hb hi _ ih =>
    have h1 := put_bracket (args := args) hw (.inl (brackets_bracket hb).1)
    have h2 := put_bracket (args := args) hw (.inl (brackets_bracket hb).2)
    have := ArgText.group hb (put_balanced hw ha hi) ih
    simpa [List.flatMap_append, h1, h2] using this

theorem put_commaJoin (hw : Wordy nameOf params) : ∀ as : List (List Item), (Spec.commaJoin as).flatMap (put params args) =
    Spec.commaJoin (as.map (List.flatMap (put params args)))
  | [] => rfl
  | [a] => rfl
  | a :: b :: as => by
    rw [Spec.commaJoin, List.flatMap_append, List.flatMap_cons, put_commaJoin hw (b :: as), put_bracket hw (.inr rfl)]
    · simp only [List.map_cons]
      exact (Spec.commaJoin.eq_3 _ _ (by simp)).symm
    · simp

theorem put_call (hw : Wordy nameOf params) (ha : ∀ a ∈ args, ArgText a) {as : List (List Item)} {ts rest : List Item} (h : Call as ts rest) :
    Call (as.map (List.flatMap (put params args))) (ts.flatMap (put params args)) (rest.flatMap (put params args)) := by
  obtain ⟨h1, h2, rfl⟩ := h
  refine ⟨by simpa using h1, ?_, ?_⟩
  · intro a ha'
    obtain ⟨a', hm, rfl⟩ := List.mem_map.1 ha'
    exact put_argText hw ha (h2 a' hm)
  · have o := put_bracket (args := args) hw (s := c!"(") (.inl (by simp [IsBracket]))
    have c := put_bracket (args := args) hw (s := c!")") (.inl (by simp [IsBracket]))
    simp [List.flatMap_append, o, c, put_commaJoin hw]

theorem put_item (hw : Wordy nameOf params) (s : Str) : put params args (Spec.item nameOf s) = [Spec.item nameOf s] := by
  unfold Spec.item
  split
  · rfl
  · rename_i h
    exact put_other fun hm => (hw s hm).1 h

theorem put_items (hw : Wordy nameOf params) : ∀ body : List Str,
    (body.map (Spec.item nameOf)).flatMap (put params args) = body.map (Spec.item nameOf)
  | [] => rfl
  | s :: body => by rw [List.map_cons, List.flatMap_cons, put_item hw, put_items hw body]; rfl

theorem put_subst (hw : Wordy nameOf params) {qs : List Str} {as : List (List Item)} {va : Option (List Item)} : ∀ body : List Str,
    (Spec.subst nameOf qs as va body).flatMap (put params args) =
      Spec.subst nameOf qs (as.map (List.flatMap (put params args))) (va.map (List.flatMap (put params args))) body
  | [] => rfl
  | s :: body => by
    simp only [Spec.subst, List.flatMap_append, put_subst hw body]
    congr 1
    split
    · rename_i i _
      simp only [List.getD_eq_getElem?_getD, List.getElem?_map]
      cases as[i]? <;> rfl
    · cases va with
      | none => simp [put_item hw]
      | some v =>
        simp only [Option.map_some]
        split
        · rfl
        · simp [put_item hw]

/-- Text without macros expands to itself. -/
theorem expands_put_arg {D : Table} {H : List Str} (hH : ∀ x ∈ H, D x ≠ none) {ts out : List Item} (h : Expands nameOf D H ts out) :
    ∀ {a : List Item}, (∀ id, Item.name id false ∈ a → D id = none) → Expands nameOf D H (a ++ ts) (a ++ out)
  | [], _ => h
  | .other s :: a, ha => .other (expands_put_arg hH h fun id hm => ha id (List.mem_cons_of_mem _ hm))
  | .name id true :: a, ha => .painted (expands_put_arg hH h fun id hm => ha id (List.mem_cons_of_mem _ hm))
  | .name id false :: a, ha =>
    .undefined (fun hm => hH id hm (ha id List.mem_cons_self)) (ha id List.mem_cons_self)
      (expands_put_arg hH h fun id hm => ha id (List.mem_cons_of_mem _ hm))

/-- Expansion does not look into the parameters. -/
theorem expands_put {D : Table} (hw : Wordy nameOf params) (ha : ∀ a ∈ args, ArgText a)
    (hm : ∀ a ∈ args, ∀ id, Item.name id false ∈ a → D id = none) {H : List Str} {ts out : List Item} (h : Expands nameOf D H ts out) :
    (∀ x ∈ H, D x ≠ none) → Expands nameOf D H (ts.flatMap (put params args)) (out.flatMap (put params args)) := by
  have ext : ∀ {H : List Str} {id : Str} {d : Def}, (∀ x ∈ H, D x ≠ none) → D id = some d → ∀ x ∈ id :: H, D x ≠ none := by
    intro H id d hH hd x hx
    rcases List.mem_cons.1 hx with rfl | hx
    · simp [hd]
    · exact hH x hx
  refine Expands.rec
    (motive_1 := fun H ts out _ => (∀ x ∈ H, D x ≠ none) → Expands nameOf D H (ts.flatMap (put params args)) (out.flatMap (put params args)))
    (motive_2 := fun H as as' _ => (∀ x ∈ H, D x ≠ none) →
      ExpandsAll nameOf D H (as.map (List.flatMap (put params args))) (as'.map (List.flatMap (put params args))))
    ?nil ?other ?painted ?hidden ?undefined ?object ?call ?callV ?anil ?acons h
  case nil => exact fun _ => .nil
  case other =>
    intro H s ts out _ ih hH
    rw [List.flatMap_cons, List.flatMap_cons]
    refine expands_put_arg hH (ih hH) ?_
    simp only [put]
    split
    · exact put_all (Q := fun a => ∀ id, Item.name id false ∈ a → D id = none) (by simp) (params := params) hm _
    · simp
  case painted => exact fun _ ih hH => .painted (ih hH)
  case hidden => exact fun hid _ ih hH => .hidden hid (ih hH)
  case undefined => exact fun hid hd _ ih hH => .undefined hid hd (ih hH)
  case object =>
    intro H id body b ts out hid hd _ _ ihb ih hH
    have hb := ihb (ext hH hd)
    have : (body.map (Spec.item nameOf)).flatMap (put params args) = body.map (Spec.item nameOf) := put_items hw body
    rw [this] at hb
    rw [List.flatMap_append]
    exact .object hid hd hb (ih hH)
  case call =>
    intro H id ps body as as' b ts rest out hid hd hell hcall har _ _ _ iha ihb ih hH
    have hb := ihb (ext hH hd)
    rw [put_subst hw] at hb
    rw [List.flatMap_append]
    refine .call hid hd hell (put_call hw ha hcall) ?_ (iha hH) hb (ih hH)
    rcases har with h | ⟨h, h'⟩
    · exact .inl (by simpa using h)
    · exact .inr ⟨h, by simp [h']⟩
  case callV =>
    intro H id ps body as as' va b ts rest out hid hd hell hcall hlen _ _ _ _ iha ihva ihb ih hH
    have hb := ihb (ext hH hd)
    rw [put_subst hw] at hb
    have hva := ihva hH
    have h1 := iha hH
    rw [put_commaJoin hw, List.map_drop] at hva
    rw [List.map_take] at h1
    rw [List.flatMap_append]
    exact .callVariadic hid hd hell (put_call hw ha hcall) (by simpa using hlen) h1 hva hb (ih hH)
  case anil => exact fun _ => .nil
  case acons => exact fun _ _ h1 h2 hH => .cons (h1 hH) (h2 hH)

end

theorem openBody_put {nameOf : Str → Option Str} {params : List Str} (hw : Wordy nameOf params) (args : List (List Item)) :
    ∀ body : List Str, (Spec.openBody nameOf params body).flatMap (put params args) = Spec.subst nameOf params args none body
  | [] => rfl
  | s :: body => by
    have ih := openBody_put hw args body
    simp only [Spec.openBody, List.map_cons, List.flatMap_cons, Spec.subst] at ih ⊢
    rw [ih]
    congr 1
    by_cases h : s ∈ params
    · rw [if_pos h]
      cases hi : Spec.paramIndex params s with
      | none => exact absurd h (paramIndex_none.1 hi)
      | some i => simp only [put, hi]
    · rw [if_neg h, put_item hw, paramIndex_none.2 h]

theorem openBody_complete {nameOf : Str → Option Str} {D : Table} {params : List Str} (hw : Wordy nameOf params) {body : List Str}
    (h : Spec.Complete D (Spec.placeholders nameOf params body)) : Spec.Complete D (Spec.openBody nameOf params body) := by
  have h' := fill_complete (σ := fun p => if p ∈ params then [.other p] else [])
    (fun p => by
      split
      · rename_i hp
        exact .other (hw p hp).2.1 (hw p hp).2.2 .nil
      · exact .nil)
    (fun p => by
      split
      · exact .other .nil
      · exact .nil) h
  have e : ∀ body : List Str, (Spec.placeholders nameOf params body).flatMap
      (fill fun p => if p ∈ params then [.other p] else []) = Spec.openBody nameOf params body := by
    intro body
    induction body with
    | nil => rfl
    | cons s body ih =>
      simp only [Spec.placeholders, Spec.openBody, List.map_cons, List.flatMap_cons] at ih ⊢
      rw [ih]
      by_cases h : s ∈ params
      · simp [h, fill]
      · rw [if_neg h, if_neg h]
        have : fill (fun p => if p ∈ params then [.other p] else []) (Spec.item nameOf s) = [Spec.item nameOf s] := by
          unfold Spec.item
          split <;> rfl
        rw [this]
        rfl
  rw [e] at h'
  exact h'

theorem detokenize_append {n : Nat} {a b : List Token} {x y : List MacroToken} (ha : detokenize n a = .ok x)
    (hb : detokenize n b = .ok y) : detokenize n (a ++ b) = .ok (x ++ y) := by
  induction a generalizing x with
  | nil => simp only [detokenize, Except.ok.injEq] at ha; subst ha; exact hb
  | cons t a ih =>
    simp only [List.cons_append, detokenize, bind, Except.bind] at ha ⊢
    cases ht : t.detokenize n with
    | error e => rw [ht] at ha; simp at ha
    | ok m =>
      rw [ht] at ha
      dsimp only at ha ⊢
      cases hr : detokenize n a with
      | error e => rw [hr] at ha; simp at ha
      | ok z =>
        rw [hr] at ha
        simp only [Except.ok.injEq] at ha
        subst ha
        rw [ih hr]
        simp

theorem getD_forall {α β : Type} {P : α → β → Prop} {d : α} {e : β} (hd : P d e) : ∀ {as : List α} {bs : List β},
    as.length = bs.length → (∀ i (h : i < as.length) (h' : i < bs.length), P as[i] bs[i]) → ∀ i, P (as.getD i d) (bs.getD i e) := by
  intro as bs hl h i
  by_cases hi : i < as.length
  · have := h i hi (hl ▸ hi)
    simpa [List.getD_eq_getElem?_getD, hi, hl ▸ hi] using this
  · have h' : ¬ i < bs.length := hl ▸ hi
    have e1 : as[i]? = none := by simp; omega
    have e2 : bs[i]? = none := by simp; omega
    simpa [List.getD_eq_getElem?_getD, e1, e2] using hd

theorem detokenize_put (ps : Params E) (hv : ps.variadic = false) {n : Nat} {args : List (List Item)} {argToks : List (List MacroToken)}
    (ha : ∀ i, detokenize 0 ((args.getD i []).map (tokOf E)) = .ok (argToks.getD i [])) :
    ∀ {out : List Item} {toks : List MacroToken}, OkIns ps out → detokenize n (out.map (tokIn ps)) = .ok toks →
    detokenize 0 ((out.flatMap (put ps.names args)).map (tokOf E)) = .ok (toks.flatMap (place argToks))
  | [], toks, _, h => by
    simp only [List.map_nil, detokenize, Except.ok.injEq] at h
    subst h
    rfl
  | i :: out, toks, ho, h => by
    simp only [List.map_cons, detokenize, bind, Except.bind] at h
    cases ht : (tokIn ps i).detokenize n with
    | error e => rw [ht] at h; simp at h
    | ok m =>
      rw [ht] at h
      dsimp only at h
      cases hr : detokenize n (out.map (tokIn ps)) with
      | error e => rw [hr] at h; simp at h
      | ok z =>
        rw [hr] at h
        simp only [Except.ok.injEq] at h
        subst h
        have ih := detokenize_put ps hv ha (fun t ht => ho t (List.mem_cons_of_mem _ ht)) hr
        rw [List.flatMap_cons, List.map_append, List.flatMap_append]
        refine detokenize_append ?_ ih
        have h0 := ho i List.mem_cons_self
        cases i with
        | name id p =>
          have e : m = some (.ident id) := by
            cases p <;> simpa [tokIn, Token.detokenize] using ht.symm
          subst e
          cases p <;> rfl
        | other s =>
          simp only [OkIn, tokIn] at h0
          simp only [tokIn] at ht
          simp only [put]
          cases hp : Spec.paramIndex ps.names s with
          | some j =>
            simp only [hp] at ht ⊢
            simp only [Token.detokenize, Except.ok.injEq] at ht
            subst ht
            simpa [place] using ha j
          | none =>
            simp only [hp] at ht h0 ⊢
            simp only [List.map_cons, List.map_nil, tokOf_other, detokenize, bind, Except.bind]
            have hna : (Token.fromStr E s).isArg = false := by
              cases hi : (Token.fromStr E s).isArg with
              | false => rfl
              | true =>
                have := (h0.2.1 hi).resolve_left (paramIndex_none.1 hp)
                rw [hv] at this
                cases this
            have hnr := fromStr_ne_nonRepl E s
            generalize Token.fromStr E s = t at *
            cases t with
            | nonRepl t => exact absurd rfl (hnr t)
            | varArgs => simp [Token.isArg] at hna
            | macroArg j => simp [Token.isArg] at hna
            | plain x => simp [Token.detokenize] at ht
            | _ =>
              simp only [Token.detokenize, Except.ok.injEq] at ht
              subst ht
              rfl

theorem wordy_of_names (L : E.Lawful) {params : List Str} (h : ∀ p ∈ params, nameOf E p = some p) : Wordy (nameOf E) params := by
  intro p hp
  have hb : ∀ s : Str, (IsBracket s ∨ s = c!",") → nameOf E s = none := by
    intro s hs
    refine nameOf_none ?_
    have : Token.fromStr E s = .punct s := by
      rcases hs with hs | rfl
      · rcases hs with rfl | rfl | rfl | rfl | rfl | rfl <;> exact fromStr_bracket L (by simp)
      · exact fromStr_bracket L (by simp)
    simp [this]
  refine ⟨by simp [h p hp], fun hc => ?_, fun hc => ?_⟩
  · have := h p hp
    rw [hb p (.inl hc)] at this
    cases this
  · have := h p hp
    rw [hb p (.inr hc)] at this
    cases this

theorem item_punct (L : E.Lawful) {s : Str} (hs : s ∈ [c!"(", c!")", c!"[", c!"]", c!"{", c!"}", c!","]) :
    Spec.item (nameOf E) s = .other s := by
  have : nameOf E s = none := nameOf_none (by
    have : Token.fromStr E s = .punct s := by
      simp only [List.mem_cons, List.not_mem_nil, or_false] at hs
      rcases hs with rfl | rfl | rfl | rfl | rfl | rfl | rfl <;> exact fromStr_bracket L (by simp)
    simp [this])
  simp only [Spec.item, this]

theorem withCommas_items (L : E.Lawful) : ∀ as : List (List Str), (withCommas as).map (Spec.item (nameOf E)) =
    Spec.commaJoin (as.map (List.map (Spec.item (nameOf E))))
  | [] => rfl
  | [a] => rfl
  | a :: b :: as => by
    rw [withCommas, List.map_append, List.map_cons, withCommas_items L (b :: as), item_punct L (by simp)]
    · simp only [List.map_cons]
      exact (Spec.commaJoin.eq_3 _ _ (by simp)).symm
    · simp

theorem withCommas_plain {as : List (List Str)} (h : ∀ a ∈ as, PlainInput a) : PlainInput (withCommas as) := by
  induction as with
  | nil => exact ⟨by simp [withCommas], by simp [withCommas]⟩
  | cons a as ih =>
    have h1 := h a List.mem_cons_self
    have h2 := ih fun b hb => h b (List.mem_cons_of_mem _ hb)
    cases as with
    | nil => exact h1
    | cons b as =>
      rw [withCommas]
      · refine ⟨fun s hs => ?_, ?_⟩
        · rw [List.mem_append, List.mem_cons] at hs
          rcases hs with hs | rfl | hs
          · exact h1.1 s hs
          · decide
          · exact h2.1 s hs
        · rw [List.mem_append, List.mem_cons]
          rintro (hs | hs | hs)
          · exact h1.2 hs
          · revert hs; decide
          · exact h2.2 hs
      · simp

/-- A call of a macro is the expansion of the macro with the arguments in place. -/
theorem call_composes (L : E.Lawful) {D : Table} (hD : Agrees ms D) (hP : Spec.Plain (nameOf E) D) (hW : Spec.WellNested (nameOf E) D)
    {f : Str} {named body : List Str} (hf : D f = some (.fn named body)) (hn : nameOf E f = some f) (hfp : Spec.PlainSpelling f)
    {as : List (List Str)} (hpl : ∀ a ∈ as, PlainInput a) (hat : ∀ a ∈ as, ArgText (a.map (Spec.item (nameOf E))))
    (hcm : ∀ a ∈ as, Spec.Complete D (a.map (Spec.item (nameOf E))))
    (har : as ≠ [] ∧ (as.length = named.length ∨ (named = [] ∧ as = [[]])))
    {ps toks : List MacroToken} (hF : Returns (fun n => ms.expandFn E n f) (.ok (ps, toks)))
    {argToks : List (List MacroToken)} (hlen : as.length = argToks.length)
    (hA : ∀ i (h : i < as.length) (h' : i < argToks.length), Returns (fun n => ms.expand E n as[i]) (.ok argToks[i])) :
    ps = named.map .ident ∧ Returns (fun n => ms.expand E n (callText f as)) (.ok (toks.flatMap (place argToks))) := by
  obtain ⟨hell, hbc, _⟩ := hW.fn f named body hf
  obtain ⟨_, _, named', hpar, _, hnm⟩ := hP.fn f named body hf
  have hnn : ∀ p ∈ named, nameOf E p = some p := by
    rcases hpar with rfl | rfl
    · exact fun p hp => (hnm p hp).1
    · exact absurd (by simp) hell
  have hw := wordy_of_names L hnn
  -- the macro on its own
  obtain ⟨out, hout⟩ := expands_total hW (agrees_finite hD) _ [f] _ (Nat.lt_succ_self _) (openBody_complete hw hbc)
  obtain ⟨P, N, rfl, hv, hok, hN⟩ := expandFn_runs (variadic := false) L hD hP (by simpa using hf) hell hout
  simp only [Bool.false_eq_true, if_false, List.append_nil, Nat.add_zero] at hN
  cases hdt : detokenize P.names.length (out.map (tokIn P)) with
  | error e =>
    rw [hdt] at hN
    have hne : e ≠ .diverge := by
      rintro rfl
      exact detokenize_ne_diverge _ _ hdt
    have hR : Returns (fun n => ms.expandFn E n f) (.error e) := ⟨by simpa using hne, N, hN⟩
    have := hF.unique (fun _ _ hnm => expandFn_le E ms hnm f) hR
    cases this
  | ok toks' =>
    rw [hdt] at hN
    have := hF.unique (fun _ _ hnm => expandFn_le E ms hnm f) ⟨by simp, N, hN⟩
    simp only [Except.ok.injEq, Prod.mk.injEq] at this
    obtain ⟨rfl, rfl⟩ := this
    refine ⟨rfl, ?_⟩
    -- the arguments
    have harg : ∀ as : List (List Str), (∀ a ∈ as, PlainInput a) → (∀ a ∈ as, ArgText (a.map (Spec.item (nameOf E)))) →
        (∀ a ∈ as, Spec.Complete D (a.map (Spec.item (nameOf E)))) → ∀ argToks : List (List MacroToken), as.length = argToks.length →
        (∀ i (h : i < as.length) (h' : i < argToks.length), Returns (fun n => ms.expand E n as[i]) (.ok argToks[i])) →
        ∃ as', ExpandsAll (nameOf E) D [] (as.map (List.map (Spec.item (nameOf E)))) as' ∧ (∀ a ∈ as', ArgText a) ∧
          (∀ a ∈ as', ∀ id, Item.name id false ∈ a → D id = none) ∧
          ∀ i, detokenize 0 ((as'.getD i []).map (tokOf E)) = .ok (argToks.getD i []) := by
      intro as
      induction as with
      | nil =>
        intro _ _ _ argToks hl _
        cases argToks with
        | nil => exact ⟨[], .nil, by simp, by simp, fun i => rfl⟩
        | cons _ _ => simp at hl
      | cons a as ih =>
        intro hpl hat hcm argToks hl hA
        cases argToks with
        | nil => simp at hl
        | cons t argToks =>
          obtain ⟨as', h1, h2, h3, h4⟩ := ih (fun x hx => hpl x (List.mem_cons_of_mem _ hx)) (fun x hx => hat x (List.mem_cons_of_mem _ hx))
            (fun x hx => hcm x (List.mem_cons_of_mem _ hx)) argToks (by simpa using hl)
            (fun i h h' => hA (i + 1) (by simpa using h) (by simpa using h'))
          obtain ⟨a', ha'⟩ := expands_total hW (agrees_finite hD) _ [] _ (Nat.lt_succ_self _) (hcm a List.mem_cons_self)
          obtain ⟨_, _, g3⟩ := expands_good L hD hP ha' _ sameHidden_top (hpl a List.mem_cons_self).ok
          obtain ⟨M, hM⟩ := g3.nil_pre
          have hR : Returns (fun n => ms.expand E n a) (detokenize 0 (a'.map (tokOf E))) := by
            refine ⟨detokenize_ne_diverge _ _, M, ?_⟩
            simp only [MacroSet.expand, expandVarMacroBody_plain (hpl a List.mem_cons_self), hM M (Nat.le_refl _)]
          have e := expand_unique hR (hA 0 (by simp) (by simp))
          refine ⟨a' :: as', .cons ha' h1, ?_, ?_, ?_⟩
          · intro x hx
            rcases List.mem_cons.1 hx with rfl | hx
            · exact argText_iff.2 (expands_brun hW ha' [] [] (argText_brun (hat a List.mem_cons_self)))
            · exact h2 x hx
          · intro x hx
            rcases List.mem_cons.1 hx with rfl | hx
            · exact expands_finished ha'
            · exact h3 x hx
          · intro i
            cases i with
            | zero => exact e
            | succ i => exact h4 i
    obtain ⟨as', h1, h2, h3, h4⟩ := harg as hpl hat hcm argToks hlen hA
    -- the call
    have hcall : Call (as.map (List.map (Spec.item (nameOf E))))
        (.other c!"(" :: Spec.commaJoin (as.map (List.map (Spec.item (nameOf E)))) ++ .other c!")" :: []) [] := by
      refine ⟨by simpa using har.1, ?_, rfl⟩
      intro a ha
      obtain ⟨x, hx, rfl⟩ := List.mem_map.1 ha
      exact hat x hx
    have hb := expands_put hw h2 h3 hout (by
      intro x hx
      simp only [List.mem_singleton] at hx
      simp [hx, hf])
    rw [openBody_put hw] at hb
    have hx := Expands.call (H := []) (by simp) hf hell hcall (by
      rcases har.2 with h | ⟨h, h'⟩
      · exact .inl (by simpa using h)
      · exact .inr ⟨h, by simp [h']⟩) h1 hb .nil
    have htext : (callText f as).map (Spec.item (nameOf E)) =
        .name f false :: (.other c!"(" :: Spec.commaJoin (as.map (List.map (Spec.item (nameOf E)))) ++ .other c!")" :: []) := by
      have hif : Spec.item (nameOf E) f = .name f false := by simp only [Spec.item, hn]
      simp only [callText, List.cons_append, List.map_cons, List.map_append, withCommas_items L, item_punct L (s := c!"(") (by simp),
        item_punct L (s := c!")") (by simp), List.map_nil, hif]
    rw [← htext, List.append_nil] at hx
    have hin : PlainInput (callText f as) := by
      have hp := withCommas_plain hpl
      refine ⟨fun s hs => ?_, ?_⟩
      · simp only [callText, List.cons_append, List.mem_cons, List.mem_append, List.not_mem_nil, or_false] at hs
        rcases hs with rfl | rfl | hs | rfl
        · exact hfp
        · decide
        · exact hp.1 s hs
        · decide
      · simp only [callText, List.cons_append, List.mem_cons, List.mem_append, List.not_mem_nil, or_false]
        rintro (hs | hs | hs | hs)
        · rw [← hs, nameOf_varArgs] at hn
          cases hn
        · revert hs; decide
        · exact hp.2 hs
        · revert hs; decide
    obtain ⟨_, _, g3⟩ := expands_good L hD hP hx _ sameHidden_top hin.ok
    obtain ⟨M, hM⟩ := g3.nil_pre
    refine ⟨by simp, M, ?_⟩
    simp only [MacroSet.expand, expandVarMacroBody_plain hin, hM M (Nat.le_refl _)]
    exact detokenize_put P hv h4 hok hdt

theorem wellNested_returns (L : E.Lawful) {D : Table} (hD : Agrees ms D) (hP : Spec.Plain (nameOf E) D)
    (hW : Spec.WellNested (nameOf E) D) (f : Str) :
    (∃ r, Returns (fun n => ms.expandVar E n f) r) ∧ ∃ r, Returns (fun n => ms.expandFn E n f) r := by
  constructor
  · cases hd : ms.var.get f with
    | none => exact ⟨.error (.err .macroNotFound), by simp, 0, by simp only [MacroSet.expandVar, hd]⟩
    | some body =>
      have hf : D f = some (.var body) := by
        have := (hD f).1
        rw [hd] at this
        cases h : D f with
        | none => rw [h] at this; simp at this
        | some d =>
          cases d with
          | var b => rw [h] at this; simp only [Option.some.injEq] at this; rw [this]
          | fn p b => rw [h] at this; simp at this
      have hb : PlainInput body := hP.var f body hf
      obtain ⟨out, hout⟩ := expands_total hW (agrees_finite hD) _ [f] _ (Nat.lt_succ_self _) (hW.var f body hf).1
      have hS : SameHidden (setInsert [] f) [f] := by
        intro id hid; simp [setInsert]
      obtain ⟨_, _, h3⟩ := expands_good L hD hP hout _ hS hb.ok
      obtain ⟨N, hN⟩ := h3.nil_pre
      refine ⟨detokenize 0 (out.map (tokOf E)), detokenize_ne_diverge _ _, N, ?_⟩
      simp only [MacroSet.expandVar, hd, expandVarMacroBody_plain hb, hN N (Nat.le_refl _)]
  · cases hd : ms.fn.get f with
    | none => exact ⟨.error (.err .macroNotFound), by simp, 0, by simp only [MacroSet.expandFn, hd]⟩
    | some pb =>
      obtain ⟨named, body⟩ := pb
      have hf : D f = some (.fn named body) := by
        have := (hD f).2
        rw [hd] at this
        cases h : D f with
        | none => rw [h] at this; simp at this
        | some d =>
          cases d with
          | fn p b => rw [h] at this; simp only [Option.some.injEq, Prod.mk.injEq] at this; rw [this.1, this.2]
          | var b => rw [h] at this; simp at this
      obtain ⟨hell, hbc, _⟩ := hW.fn f named body hf
      obtain ⟨_, _, named', hpar, _, hnm⟩ := hP.fn f named body hf
      have hnn : ∀ p ∈ named, nameOf E p = some p := by
        rcases hpar with rfl | rfl
        · exact fun p hp => (hnm p hp).1
        · exact absurd (by simp) hell
      have hw := wordy_of_names L hnn
      obtain ⟨out, hout⟩ := expands_total hW (agrees_finite hD) _ [f] _ (Nat.lt_succ_self _) (openBody_complete hw hbc)
      obtain ⟨P, N, rfl, hv, hok, hN⟩ := expandFn_runs (variadic := false) L hD hP (by simpa using hf) hell hout
      refine ⟨_, ?_, N, hN⟩
      split
      · rename_i e he
        simp only [ne_eq, Except.error.injEq]
        rintro rfl
        exact detokenize_ne_diverge _ _ he
      · simp

end CMacro
