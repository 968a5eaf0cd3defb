import Verif.Proofs.ExpandTop

/-! # Expansion depends only on what the two maps answer; unpainting -/

namespace CMacro

/-- Two macro sets that answer every lookup the same way. -/
def SameAnswers (ms ms' : MacroSet) : Prop :=
  ∀ n, ms.var.get n = ms'.var.get n ∧ ms.fn.get n = ms'.fn.get n

theorem scan_congr {ms ms' : MacroSet} (h : SameAnswers ms ms') (S : List Str) :
    ∀ ts, scan ms S ts = scan ms' S ts := by
  intro ts
  induction ts with
  | nil => rfl
  | cons t ts ih =>
    by_cases hi : ∃ id, t = .ident id
    · obtain ⟨id, rfl⟩ := hi
      have hf : fnCallAt ms id ts = fnCallAt ms' id ts := by simp only [fnCallAt, (h id).2]
      simp only [scan, ih, hf, (h id).1]
    · rw [scan_other S (fun id hid => hi ⟨id, hid⟩), scan_other S (fun id hid => hi ⟨id, hid⟩), ih]

theorem expandMacroBody_congr (E : Env) {ms ms' : MacroSet} (h : SameAnswers ms ms') :
    ∀ n, expandMacroBody E ms n = expandMacroBody E ms' n := by
  intro n
  induction n with
  | zero => rfl
  | succ n ih =>
    funext S ts
    unfold expandMacroBody
    rw [scan_congr h, ih]

theorem expand_congr (E : Env) {ms ms' : MacroSet} (h : SameAnswers ms ms') (n : Nat)
    (b : List Str) : ms.expand E n b = ms'.expand E n b := by
  unfold MacroSet.expand; rw [expandMacroBody_congr E h]

theorem expandVar_congr (E : Env) {ms ms' : MacroSet} (h : SameAnswers ms ms') (n : Nat)
    (name : Str) : ms.expandVar E n name = ms'.expandVar E n name := by
  unfold MacroSet.expandVar; rw [expandMacroBody_congr E h, (h name).1]

theorem expandFn_congr (E : Env) {ms ms' : MacroSet} (h : SameAnswers ms ms') (n : Nat)
    (name : Str) : ms.expandFn E n name = ms'.expandFn E n name := by
  unfold MacroSet.expandFn; rw [expandMacroBody_congr E h, (h name).2]

/-! ## Unpainting one name -/

/-- Forget that `n` was painted. -/
def unpaint (n : Str) (t : Token) : Token := if t = .nonRepl (.ident n) then .ident n else t

theorem unpaint_of_ne {n : Str} {t : Token} (h : ∀ x, t ≠ .nonRepl x) : unpaint n t = t :=
  if_neg (h _)

theorem unpaint_of_ne' {n id : Str} (h : id ≠ n) :
    unpaint n (.nonRepl (.ident id)) = .nonRepl (.ident id) := by
  unfold unpaint; rw [if_neg]; simpa using h

theorem unpaint_strip (n : Str) (t : Token) : (unpaint n t).strip = t.strip := by
  unfold unpaint
  split
  · rename_i h; subst h; rfl
  · rfl

theorem unpaint_eq_punct {n p : Str} {t : Token} : unpaint n t = .punct p ↔ t = .punct p := by
  unfold unpaint
  split
  · rename_i h; subst h; simp
  · rfl

theorem unpaint_isArg (n : Str) (t : Token) : (unpaint n t).isArg = t.isArg := by
  unfold unpaint
  split
  · rename_i h; subst h; rfl
  · rfl

theorem unpaint_ne_placemarker {n : Str} {t : Token} :
    unpaint n t = .placemarker ↔ t = .placemarker := by
  unfold unpaint
  split
  · rename_i h; subst h; simp
  · rfl

theorem strip_ne_nonRepl (t x : Token) : t.strip ≠ .nonRepl x := by
  induction t with
  | nonRepl t ih => simpa [Token.strip] using ih
  | _ => simp [Token.strip]

/-- Map a list-valued result. -/
def Res.map {α β : Type} (f : α → β) : Res α → Res β
  | .ok a => .ok (f a)
  | .error e => .error e

variable {E : Env} {n : Str}

theorem concatCore_unpainted {a b c : Token} (ha : ∀ x, a ≠ .nonRepl x) (hb : ∀ x, b ≠ .nonRepl x)
    (h : concatCore E a b = .ok c) : c ≠ .nonRepl (.ident n) := by
  unfold concatCore concatPunctLit concatIdentLit concatGeneral reclassify at h
  intro hc; subst hc
  repeat' split at h
  all_goals simp only [reduceCtorEq, Except.ok.injEq, Token.nonRepl.injEq] at h
  all_goals first
    | exact hb _ h
    | exact ha _ h
    | (split at h <;> simp at h)

theorem concat_unpaint (a b : Token) :
    (unpaint n a).concat E (unpaint n b) = (a.concat E b).map (unpaint n) := by
  unfold Token.concat
  rw [unpaint_strip, unpaint_strip]
  cases h : concatCore E a.strip b.strip with
  | error e => rfl
  | ok c =>
    simp only [Res.map]
    rw [unpaint, if_neg (concatCore_unpainted (strip_ne_nonRepl a) (strip_ne_nonRepl b) h)]

theorem popNonComment_unpaint : ∀ ts : List Token, popNonComment (ts.map (unpaint n)) =
    (popNonComment ts).map fun p => (unpaint n p.1, p.2.map (unpaint n)) := by
  intro ts
  induction ts with
  | nil => rfl
  | cons t ts ih =>
    cases t with
    | comment c => simpa [popNonComment, unpaint] using ih
    | nonRepl t =>
      simp only [List.map_cons]
      by_cases h : t = .ident n
      · subst h; simp [unpaint, popNonComment]
      · have : unpaint n (.nonRepl t) = .nonRepl t := by simp [unpaint, h]
        simp [popNonComment, this]
    | _ => simp [popNonComment, unpaint]

theorem head_isArg_unpaint (ts : List Token) :
    (((ts.map (unpaint n)).head?.map Token.isArg).getD false) =
      ((ts.head?.map Token.isArg).getD false) := by
  cases ts with
  | nil => rfl
  | cons t ts => simp [unpaint_isArg]

theorem head_punct_unpaint (ts : List Token) (p : Str) :
    (ts.map (unpaint n)).head? = some (.punct p) ↔ ts.head? = some (.punct p) := by
  cases ts with
  | nil => simp
  | cons t ts => simp [unpaint_eq_punct]

theorem expandConcatGo_unpaint : ∀ k (out ts : List Token),
    expandConcatGo E k (out.map (unpaint n)) (ts.map (unpaint n)) =
      (expandConcatGo E k out ts).map (List.map (unpaint n)) := by
  intro k
  induction k with
  | zero => intro out ts; rfl
  | succ k ih =>
    intro out ts
    cases ts with
    | nil => simp [expandConcatGo, Res.map]
    | cons t rest =>
      simp only [List.map_cons]
      rw [expandConcatGo, expandConcatGo]
      simp only [unpaint_eq_punct, head_isArg_unpaint, head_punct_unpaint, popNonComment_unpaint]
      split
      · cases popNonComment out with
        | none => rfl
        | some p =>
          obtain ⟨lhs, out'⟩ := p
          simp only [Option.map_some]
          split
          · have := concat_unpaint (E := E) (n := n) lhs .placemarker
            rw [unpaint_of_ne (t := .placemarker) (by simp)] at this
            rw [this]
            cases lhs.concat E .placemarker with
            | error e => rfl
            | ok c => simpa [Res.map] using ih (c :: out') rest
          · cases popNonComment rest with
            | none => rfl
            | some q =>
              obtain ⟨rhs, rest'⟩ := q
              simp only [Option.map_some, concat_unpaint]
              cases lhs.concat E rhs with
              | error e => rfl
              | ok c => simpa [Res.map] using ih (c :: out') rest'
      · simpa using ih (t :: out) rest

theorem expandConcat_unpaint (ts : List Token) :
    expandConcat E (ts.map (unpaint n)) = (expandConcat E ts).map (List.map (unpaint n)) := by
  have := expandConcatGo_unpaint (E := E) (n := n) (ts.length + 1) [] ts
  simpa [expandConcat] using this

theorem removePlacemarkers_unpaint (ts : List Token) :
    removePlacemarkers (ts.map (unpaint n)) = (removePlacemarkers ts).map (unpaint n) := by
  induction ts with
  | nil => rfl
  | cons t ts ih =>
    simp only [removePlacemarkers, List.map_cons, List.filter_cons] at ih ⊢
    by_cases h : t = .placemarker
    · subst h; simpa [unpaint] using ih
    · have : unpaint n t ≠ .placemarker := fun hc => h (unpaint_ne_placemarker.1 hc)
      simpa [h, this] using ih

theorem stringify_unpaint_tok (nested : Bool) (t : Token) :
    (unpaint n t).stringify nested = t.stringify nested := by
  by_cases h : t = .nonRepl (.ident n)
  · subst h; simp [unpaint, Token.stringify]
  · simp [unpaint, h]

theorem stringifyGo_unpaint (nested : Bool) : ∀ (ts : List Token) space kept cur,
    stringifyGo nested space (kept.map (unpaint n)) cur (ts.map (unpaint n)) =
      ((stringifyGo nested space kept cur ts).1.map (unpaint n),
        (stringifyGo nested space kept cur ts).2) := by
  intro ts
  induction ts with
  | nil => intro space kept cur; rfl
  | cons t ts ih =>
    intro space kept cur
    simp only [List.map_cons, stringifyGo, stringify_unpaint_tok]
    cases t.stringify nested with
    | keep =>
      have := ih space (kept ++ [.punct c!"#", t]) cur
      simpa [unpaint_of_ne (n := n) (t := .punct c!"#") (by simp)] using this
    | skip => exact ih space kept cur
    | append s => exact ih _ kept _

theorem stringify_unpaint (nested : Bool) (ts : List Token) :
    stringify E nested (ts.map (unpaint n)) = (stringify E nested ts).map (unpaint n) := by
  have := stringifyGo_unpaint (n := n) nested ts false [] none
  simp only [List.map_nil] at this
  simp only [stringify, this]
  cases (stringifyGo nested false [] none ts).2 with
  | none =>
    cases (stringifyGo nested false [] none ts).1 with
    | nil => simp [unpaint]
    | cons a l => simp
  | some s => simp [unpaint]

/-- Everything mapped inside the arguments. -/
abbrev unpaints (n : Str) (args : List (List Token)) : List (List Token) :=
  args.map (List.map (unpaint n))

theorem joinArgs_unpaint (args : List (List Token)) :
    joinArgs (unpaints n args) = (joinArgs args).map (unpaint n) := by
  induction args with
  | nil => rfl
  | cons a as ih =>
    cases as with
    | nil => simp [joinArgs, List.intersperse]
    | cons b bs =>
      simp only [joinArgs, unpaints, List.map_cons, List.intersperse, List.flatten_cons,
        List.map_append] at ih ⊢
      rw [ih]
      simp [unpaint]

theorem selectArg_unpaint (names : List Token) (args : List (List Token)) (t : Token) :
    selectArg names (unpaints n args) t = (selectArg names args t).map (List.map (unpaint n)) := by
  have key : (if names.length = 0 ∨ (unpaints n args).length < names.length - 1 then
      (.error (.panic .varArgsSlice) : Res (List Token))
    else .ok (joinArgs ((unpaints n args).drop (names.length - 1)))) =
    Res.map (List.map (unpaint n)) (if names.length = 0 ∨ args.length < names.length - 1 then
      (.error (.panic .varArgsSlice) : Res (List Token))
    else .ok (joinArgs (args.drop (names.length - 1)))) := by
    simp only [List.length_map]
    split
    · rfl
    · simp only [Res.map, ← joinArgs_unpaint, unpaints, List.map_drop]
  cases t with
  | macroArg i =>
    simp only [selectArg, List.getElem?_map]
    cases args[i]? <;> rfl
  | _ => exact key

theorem placeArg_ne {rec : List Token → Res (List Token)} {nested : Bool}
    {out arg rest : List Token} (h : out.head? ≠ some (.punct c!"#")) :
    placeArg E rec nested out arg rest =
      (match rec arg with
      | .error e => .error e
      | .ok arg =>
        if (out.head? = some (.punct c!"##") ∨ rest.head? = some (.punct c!"##")) ∧ arg = [] then
          .ok (.placemarker :: out)
        else .ok (arg.reverse ++ out)) := by
  unfold placeArg
  split
  · simp at h
  · rfl

theorem placeArg_unpaint {rec rec' : List Token → Res (List Token)} {nested : Bool}
    {out arg rest : List Token}
    (hrec : rec' (arg.map (unpaint n)) = (rec arg).map (List.map (unpaint n))) :
    placeArg E rec' nested (out.map (unpaint n)) (arg.map (unpaint n)) (rest.map (unpaint n)) =
      (placeArg E rec nested out arg rest).map (List.map (unpaint n)) := by
  have hh : ∀ {p : Str}, (out.map (unpaint n)).head? = some (.punct p) ↔
      out.head? = some (.punct p) := head_punct_unpaint out _
  by_cases h : out.head? = some (.punct c!"#")
  · cases out with
    | nil => simp at h
    | cons o out' =>
      simp only [List.head?_cons, Option.some.injEq] at h
      subst h
      have : unpaint n (Token.punct c!"#") = .punct c!"#" := unpaint_of_ne (by simp)
      simp only [placeArg, List.map_cons, this, Res.map, stringify_unpaint, List.map_append,
        List.map_reverse]
  · rw [placeArg_ne (fun hc => h (hh.1 hc)), placeArg_ne h, hrec]
    cases rec arg with
    | error e => rfl
    | ok a =>
      simp only [Res.map, hh, head_punct_unpaint, List.map_eq_nil_iff]
      split <;> simp [unpaint]

theorem isArg_unpaint_eq {t : Token} (h : t.isArg = true) : unpaint n t = t := by
  cases t <;> simp [Token.isArg] at h <;> simp [unpaint]

theorem expandArguments_unpaint {rec rec' : List Token → Res (List Token)} {nested : Bool}
    {names : List Token} {args : List (List Token)} {P : List Token → Prop}
    (hrec : ∀ ts, P ts → rec' (ts.map (unpaint n)) = (rec ts).map (List.map (unpaint n)))
    (hP : ∀ t a, selectArg names args t = .ok a → P a) :
    ∀ (body out : List Token),
    expandArguments E rec' nested names (unpaints n args) (out.map (unpaint n))
        (body.map (unpaint n)) =
      (expandArguments E rec nested names args out body).map (List.map (unpaint n)) := by
  intro body
  induction body with
  | nil => intro out; simp [expandArguments, Res.map]
  | cons t rest ih =>
    intro out
    simp only [List.map_cons, expandArguments, unpaint_eq_punct, unpaint_isArg, head_isArg_unpaint]
    split
    · split
      · simpa using ih (t :: out)
      · rfl
    · split
      · rename_i ha
        rw [isArg_unpaint_eq ha, selectArg_unpaint]
        cases hs : selectArg names args t with
        | error e => rfl
        | ok arg =>
          simp only [Res.map]
          rw [placeArg_unpaint (hrec arg (hP t arg hs))]
          cases placeArg E rec nested out arg rest with
          | error e => rfl
          | ok o => simpa [Res.map] using ih o
      · simpa using ih (t :: out)

theorem collectArgsGo_unpaint : ∀ (ts : List Token) stack args cur,
    collectArgsGo stack (unpaints n args) (cur.map (unpaint n)) (ts.map (unpaint n)) =
      (collectArgsGo stack args cur ts).map fun r => (unpaints n r.1, r.2.map (unpaint n)) := by
  intro ts
  induction ts with
  | nil => intro stack args cur; rfl
  | cons t ts ih =>
    intro stack args cur
    have hcopy : ∀ st, collectArgsGo st (unpaints n args) (cur.map (unpaint n) ++ [unpaint n t])
        (ts.map (unpaint n)) =
        (collectArgsGo st args (cur ++ [t]) ts).map fun r => (unpaints n r.1, r.2.map (unpaint n)) := by
      intro st
      simpa using ih st args (cur ++ [t])
    by_cases hp : ∃ p, t = .punct p
    · obtain ⟨p, rfl⟩ := hp
      have hu : unpaint n (.punct p) = .punct p := unpaint_of_ne (by simp)
      rw [hu] at hcopy
      simp only [List.map_cons, hu]
      rw [collectArgsGo, collectArgsGo]
      split
      · exact hcopy _
      · split
        · split
          · simp
          · cases popParen '(' stack with
            | none => rfl
            | some st => exact hcopy st
        · split
          · exact hcopy _
          · split
            · cases popParen '[' stack with
              | none => rfl
              | some st => exact hcopy st
            · split
              · exact hcopy _
              · split
                · cases popParen '{' stack with
                  | none => rfl
                  | some st => exact hcopy st
                · split
                  · simpa using ih stack (args ++ [cur]) []
                  · exact hcopy _
    · have e1 : ∀ (t : Token), (∀ p, t ≠ .punct p) → ∀ st (as : List (List Token)) cu rs,
          collectArgsGo st as cu (t :: rs) = collectArgsGo st as (cu ++ [t]) rs := by
        intro t ht st as cu rs
        cases t with
        | punct p => exact absurd rfl (ht p)
        | _ => rfl
      have hp' : ∀ p, unpaint n t ≠ .punct p := fun p hc => hp ⟨p, unpaint_eq_punct.1 hc⟩
      rw [List.map_cons, e1 _ hp', e1 t (fun p hc => hp ⟨p, hc⟩)]
      exact hcopy _

theorem collectArgs_unpaint (ts : List Token) :
    collectArgs (ts.map (unpaint n)) =
      (collectArgs ts).map fun r => (unpaints n r.1, r.2.map (unpaint n)) := by
  cases ts with
  | nil => rfl
  | cons t ts =>
    by_cases hp : ∃ p, t = .punct p
    · obtain ⟨p, rfl⟩ := hp
      have hu : unpaint n (.punct p) = .punct p := unpaint_of_ne (by simp)
      simp only [List.map_cons, hu, collectArgs]
      split
      · simpa using collectArgsGo_unpaint (n := n) ts [] [] []
      · rfl
    · have e1 : ∀ (t : Token), (∀ p, t ≠ .punct p) → ∀ rs, collectArgs (t :: rs) = none := by
        intro t ht rs
        cases t with
        | punct p => exact absurd rfl (ht p)
        | _ => rfl
      rw [List.map_cons, e1 _ (fun p hc => hp ⟨p, unpaint_eq_punct.1 hc⟩),
        e1 t (fun p hc => hp ⟨p, hc⟩)]
      rfl

/-- A scan result with everything unpainted. -/
def Scan.unpaint (n : Str) : Scan → Scan
  | .done out => .done (out.map (CMacro.unpaint n))
  | .fnCall pre id a b args rest =>
    .fnCall (pre.map (CMacro.unpaint n)) id a b (unpaints n args) (rest.map (CMacro.unpaint n))
  | .varRef pre id b rest =>
    .varRef (pre.map (CMacro.unpaint n)) id b (rest.map (CMacro.unpaint n))

theorem Scan.unpaint_push (t : Token) (s : Scan) :
    (s.push t).unpaint n = (s.unpaint n).push (CMacro.unpaint n t) := by
  cases s <;> simp [Scan.push, Scan.unpaint]

/-- The hidden names with `n` hidden, and with the empty name instead. -/
structure Twin (n : Str) (S S' : List Str) : Prop where
  mem : n ∈ S
  notMem : n ∉ S'
  other : ∀ id, id ≠ n → id ≠ [] → (id ∈ S ↔ id ∈ S')
  length : S.length = S'.length
  empty : [] ∉ S
  empty' : [] ∈ S'

variable {ms ms' : MacroSet}

theorem scan_unpaint {S S' : List Str} (hT : Twin n S S') (hn : ms.fn.get n = none)
    (hfn : ms'.fn = ms.fn) (hvar : ∀ id, id ≠ n → ms'.var.get id = ms.var.get id)
    (hvn : ms'.var.get n = none) : ∀ ts, (∀ t ∈ ts, t.strip ≠ .ident []) →
    scan ms' S' (ts.map (unpaint n)) = (scan ms S ts).unpaint n := by
  intro ts
  induction ts with
  | nil => intro _; rfl
  | cons t ts ih =>
    intro hne
    have ih := ih (fun x hx => hne x (List.mem_cons_of_mem _ hx))
    have hstay : ∀ rest, scan ms' S' (.ident n :: rest) = (scan ms' S' rest).push (.ident n) := by
      intro rest
      have : fnCallAt ms' n rest = none := fnCallAt_none (by rw [hfn]; exact hn) rest
      simp only [scan, if_neg hT.notMem, this, hvn]
    by_cases hi : ∃ id, t = .ident id
    · obtain ⟨id, rfl⟩ := hi
      have hu : unpaint n (.ident id) = .ident id := unpaint_of_ne (by simp)
      have hidne : id ≠ [] := by
        rintro rfl; exact hne _ List.mem_cons_self rfl
      simp only [List.map_cons, hu]
      by_cases hid : id = n
      · subst hid
        rw [hstay, ih]
        simp only [scan, if_pos hT.mem, Scan.unpaint_push]
        simp [unpaint]
      · have hm := hT.other id hid hidne
        by_cases hin : id ∈ S
        · simp only [scan, if_pos hin, if_pos (hm.1 hin), ih, Scan.unpaint_push]
          rw [unpaint_of_ne' hid]
        · have hf : fnCallAt ms' id (ts.map (unpaint n)) = (fnCallAt ms id ts).map
              fun r => (r.1, unpaints n r.2.1, r.2.2.map (unpaint n)) := by
            simp only [fnCallAt, head_punct_unpaint, hfn, collectArgs_unpaint]
            split
            · cases ms.fn.get id with
              | none => rfl
              | some d => cases collectArgs ts <;> rfl
            · rfl
          simp only [scan, if_neg hin, if_neg (fun h => hin (hm.2 h)), hf, hvar id hid]
          cases fnCallAt ms id ts with
          | some r => obtain ⟨d, a, r⟩ := r; rfl
          | none =>
            simp only [Option.map_none]
            cases ms.var.get id with
            | some b => rfl
            | none => simp only [ih, Scan.unpaint_push, hu]
    · rw [scan_other S (fun id hc => hi ⟨id, hc⟩), Scan.unpaint_push, ← ih, List.map_cons]
      by_cases hp : t = .nonRepl (.ident n)
      · subst hp
        have : unpaint n (.nonRepl (.ident n)) = .ident n := by simp [unpaint]
        rw [this, hstay]
      · have : unpaint n t = t := by simp [unpaint, hp]
        rw [this, scan_other S' (fun id hc => hi ⟨id, hc⟩)]

/-! ## Identifiers are never empty -/

/-- Not the empty identifier, painted or not. -/
def Named (t : Token) : Prop := t.strip ≠ .ident []

theorem named_fromStr (E : Env) (s : Str) : Named (Token.fromStr E s) := by
  unfold Named
  intro h
  have h' : Token.fromStr E s = .ident [] := by
    cases ht : Token.fromStr E s with
    | nonRepl t => exact absurd ht (fromStr_ne_nonRepl E s t)
    | ident id => rw [ht] at h; exact h
    | _ => rw [ht] at h; simp [Token.strip] at h
  exact identTryFrom_ne_nil (fromStr_ident.1 h').2 rfl

theorem named_tokenizeOne (E : Env) (names : List Token) (s : Str) :
    Named (tokenizeOne E names s) := by
  unfold tokenizeOne
  split
  · simp [Named, Token.strip]
  · exact named_fromStr E s

theorem named_concat {a b : Token} (ha : Named a) (hb : Named b) :
    (a.concat E b).Sat Named (fun _ => True) := by
  unfold Named at ha hb
  cases h : a.concat E b with
  | error e => trivial
  | ok c =>
    show Named c
    unfold Named
    intro hc
    have hsa := strip_ne_nonRepl a
    have hsb := strip_ne_nonRepl b
    have hss : ∀ t : Token, (∀ x, t ≠ .nonRepl x) → t.strip = t := by
      intro t ht
      cases t with
      | nonRepl x => exact absurd rfl (ht x)
      | _ => rfl
    unfold Token.concat at h
    generalize a.strip = a' at *
    generalize b.strip = b' at *
    unfold concatCore concatPunctLit concatIdentLit concatGeneral reclassify at h
    repeat' split at h
    all_goals simp only [reduceCtorEq, Except.ok.injEq] at h
    all_goals first
      | (subst h; simp [Token.strip] at hc; done)
      | (subst h; rw [hss _ hsb] at hc; exact hb hc)
      | (subst h; rw [hss _ hsa] at hc; exact ha hc)
      | (subst h; simp only [Token.strip, Token.ident.injEq] at hc;
         exact identTryFrom_ne_nil (by assumption) hc)
      | (subst h; simp only [Token.strip, Token.ident.injEq, List.append_eq_nil_iff] at hc
         rw [hc.1] at ha; exact ha rfl)
      | skip
    all_goals first
      | (split at h <;> simp only [reduceCtorEq, Except.ok.injEq] at h <;> subst h <;>
          simp [Token.strip] at hc)
      | skip

theorem stringifyGo_all {P : Token → Prop} (hh : P (.punct c!"#")) (nested : Bool) :
    ∀ (ts : List Token) space kept cur, AllTok P kept → AllTok P ts →
    AllTok P (stringifyGo nested space kept cur ts).1 := by
  intro ts
  induction ts with
  | nil => intro _ kept _ hk _; exact hk
  | cons t ts ih =>
    intro space kept cur hk ht
    have htl : AllTok P ts := fun x hx => ht x (List.mem_cons_of_mem _ hx)
    simp only [stringifyGo]
    split
    · refine ih _ _ _ (hk.append ?_) htl
      intro x hx
      simp only [List.mem_cons, List.not_mem_nil, or_false] at hx
      rcases hx with rfl | rfl
      · exact hh
      · exact ht _ List.mem_cons_self
    · exact ih _ _ _ hk htl
    · exact ih _ _ _ hk htl

theorem stringify_all {P : Token → Prop} (hh : P (.punct c!"#"))
    (hs : ∀ bs src, P (.lit (.string (.ordinary bs)) src)) (nested : Bool) (ts : List Token)
    (h : AllTok P ts) : AllTok P (stringify E nested ts) := by
  have hg := stringifyGo_all hh nested ts false [] none .nil h
  intro t ht
  simp only [stringify] at ht
  generalize stringifyGo nested false [] none ts = g at *
  obtain ⟨kept, cur⟩ := g
  simp only at ht hg
  cases cur with
  | none =>
    simp only [List.append_nil] at ht
    split at ht
    · simp only [List.mem_singleton] at ht; subst ht; exact hs _ _
    · exact hg t ht
  | some c =>
    rw [if_neg (by simp)] at ht
    rcases List.mem_append.1 ht with ht | ht
    · exact hg t ht
    · simp only [List.mem_singleton] at ht; subst ht; exact hs _ _

theorem sat_true {α : Type} {r : Res α} : r.Sat (fun _ => True) (fun _ => True) := by
  cases r <;> trivial

theorem named_stepInv (E : Env) (ms : MacroSet) : StepInv E ms Named (fun _ => True) where
  diverge := trivial
  concatBegin := trivial
  concatEnd := trivial
  nonVariadic := trivial
  arity := by intros; trivial
  nonUnique := fun _ => trivial
  strNonArg := trivial
  argName := trivial
  paint := fun _ h => h
  concat := fun _ _ _ ha hb _ => named_concat ha hb
  placemarker := by simp [Named, Token.strip]
  comma := by simp [Named, Token.strip]
  stringify := fun nested arg h ha =>
    stringify_all h (fun _ _ => by simp [Named, Token.strip]) nested arg ha
  fnBody := by
    intro id as b names _ _ t ht
    obtain ⟨s, _, rfl⟩ := List.mem_map.1 ht
    exact .inr (named_tokenizeOne E names s)
  varBody := by
    intro id b _ t ht
    obtain ⟨s, _, rfl⟩ := List.mem_map.1 ht
    exact .inr (named_tokenizeOne E [] s)
  select := fun _ _ _ _ _ _ _ _ _ _ _ _ _ => sat_true

/-! ## The main simulation -/

theorem Twin.insert {S S' : List Str} (h : Twin n S S') {id : Str} (hid : id ≠ n) (hne : id ≠ []) :
    Twin n (setInsert S id) (setInsert S' id) := by
  have hm := h.other id hid hne
  unfold setInsert
  by_cases hin : id ∈ S
  · rw [if_pos hin, if_pos (hm.1 hin)]; exact h
  · rw [if_neg hin, if_neg (fun hc => hin (hm.2 hc))]
    exact ⟨List.mem_cons_of_mem _ h.mem, by simp [h.notMem, Ne.symm hid],
      fun i h1 h2 => by simp [h.other i h1 h2], by simp [h.length], by simp [h.empty, Ne.symm hne],
      List.mem_cons_of_mem _ h.empty'⟩

theorem tokenize_unpaint (names : List Token) (b : List Str) :
    (tokenize E names b).map (unpaint n) = tokenize E names b := by
  unfold tokenize
  rw [List.map_map]
  apply List.map_congr_left
  intro s _
  apply unpaint_of_ne
  intro x
  unfold tokenizeOne
  split
  · simp
  · exact fromStr_ne_nonRepl E s x

theorem named_tokenize (names : List Token) (b : List Str) : AllTok Named (tokenize E names b) := by
  intro t ht
  obtain ⟨s, _, rfl⟩ := List.mem_map.1 ht
  exact named_tokenizeOne E names s

theorem expandVarMacroBody_unpaint {rec rec' : List Str → List Token → Res (List Token)}
    {S S' : List Str} {id id' : Str}
    (hrec : ∀ ts, AllTok Named ts → rec' (setInsert S' id') (ts.map (unpaint n)) =
      (rec (setInsert S id) ts).map (List.map (unpaint n))) (b : List Str) :
    expandVarMacroBody E rec' S' id' (tokenize E [] b) =
      (expandVarMacroBody E rec S id (tokenize E [] b)).map (List.map (unpaint n)) := by
  unfold expandVarMacroBody
  split
  · rfl
  · have hu := expandConcat_unpaint (E := E) (n := n) (tokenize E [] b)
    rw [tokenize_unpaint] at hu
    have hs := expandConcat_sat (named_stepInv E MacroSet.new) (named_tokenize (E := E) [] b)
    cases hc : expandConcat E (tokenize E [] b) with
    | error e => rfl
    | ok b' =>
      rw [hc] at hu hs
      simp only [Res.map, Except.ok.injEq] at hu
      have := hrec (removePlacemarkers b') (AllTok.removePlacemarkers hs)
      rw [← removePlacemarkers_unpaint, ← hu] at this
      exact this

theorem containsVarArgs_unpaint (b : List Token) :
    containsVarArgs (b.map (unpaint n)) = containsVarArgs b := by
  unfold containsVarArgs
  rw [List.any_map]
  congr 1
  funext t
  simp only [Function.comp, decide_eq_decide]
  unfold unpaint
  split
  · rename_i h; subst h; simp
  · rfl

theorem expandFnMacroBody_unpaint {k : Nat}
    (ih : ∀ S S' ts, Twin n S S' → AllTok Named ts →
      expandMacroBody E ms' k S' (ts.map (unpaint n)) =
        (expandMacroBody E ms k S ts).map (List.map (unpaint n)))
    {S S' : List Str} (hT : Twin n S S') {id : Str} (hid : id ≠ n) (hne : id ≠ [])
    {names : List Token} {args : List (List Token)} (hargs : ∀ a ∈ args, AllTok Named a)
    (b : List Str) :
    expandFnMacroBody E (expandMacroBody E ms' k) S' id names (some (unpaints n args))
        (tokenize E names b) =
      (expandFnMacroBody E (expandMacroBody E ms k) S id names (some args)
        (tokenize E names b)).map (List.map (unpaint n)) := by
  unfold expandFnMacroBody
  simp only
  have hlen : (some (unpaints n args)).map List.length = (some args).map List.length := by simp
  have har : (some (unpaints n args)).map (arityMismatch (names.filter Token.isNotComment)) =
      (some args).map (arityMismatch (names.filter Token.isNotComment)) := by
    simp only [Option.map_some, arityMismatch, List.length_map]
    cases args with
    | nil => rfl
    | cons a as => cases a <;> rfl
  rw [hlen, har]
  split
  · rfl
  · split
    · rfl
    · split
      · rfl
      · have hsel : ∀ t a, selectArg (names.filter Token.isNotComment) args t = .ok a →
            AllTok Named a := by
          intro t a h x hx
          rcases selectArg_mem h hx with rfl | ⟨a', ha', hx'⟩
          · simp [Named, Token.strip]
          · exact hargs a' ha' x hx'
        have hu := expandArguments_unpaint (E := E) (n := n) (nested := decide (S.length > 1))
          (rec := expandMacroBody E ms k S) (rec' := expandMacroBody E ms' k S')
          (fun ts hts => ih S S' ts hT hts) hsel (tokenize E names b) []
        rw [tokenize_unpaint, List.map_nil] at hu
        rw [← hT.length, hu]
        have hs := expandArguments_sat (named_stepInv E ms)
          (rec := expandMacroBody E ms k S) (nested := decide (S.length > 1))
          (names := names.filter Token.isNotComment) (args := args)
          (fun ts hts => expandMacroBody_sat (named_stepInv E ms) k S ts hts) hargs
          (body := tokenize E names b) (fun _ _ _ => sat_true)
          (fun t ht => .inr (named_tokenize names b t ht)) [] .nil
        cases hc : expandArguments E (expandMacroBody E ms k S) (decide (S.length > 1))
            (names.filter Token.isNotComment) args [] (tokenize E names b) with
        | error e => rfl
        | ok b1 =>
          rw [hc] at hs
          simp only [Res.map]
          have hs2 := expandConcat_sat (named_stepInv E ms) hs
          rw [expandConcat_unpaint]
          cases hc2 : expandConcat E b1 with
          | error e => rfl
          | ok b2 =>
            rw [hc2] at hs2
            simp only [Res.map]
            rw [removePlacemarkers_unpaint]
            exact ih _ _ _ (hT.insert hid hne) (AllTok.removePlacemarkers hs2)

theorem expandMacroBody_unpaint (hn : ms.fn.get n = none)
    (hfn : ms'.fn = ms.fn) (hvar : ∀ id, id ≠ n → ms'.var.get id = ms.var.get id)
    (hvn : ms'.var.get n = none) : ∀ k S S' ts, Twin n S S' → AllTok Named ts →
    expandMacroBody E ms' k S' (ts.map (unpaint n)) =
      (expandMacroBody E ms k S ts).map (List.map (unpaint n)) := by
  intro k
  induction k with
  | zero => intro S S' ts _ _; rfl
  | succ k ih =>
    intro S S' ts hT hts
    have hg := scan_good (ms := ms) (P := Named) (fun _ h => h) S ts hts
    unfold expandMacroBody
    rw [scan_unpaint hT hn hfn hvar hvn ts hts]
    cases hs : scan ms S ts with
    | done out => rfl
    | fnCall pre id as b args rest =>
      rw [hs] at hg
      obtain ⟨h1, h2, h3, h4, h5, h6, h7⟩ := hg
      have hid : id ≠ n := fun hc => h1 (hc ▸ hT.mem)
      have hne : id ≠ [] := by
        intro hc
        have := hts _ h7
        rw [hc] at this
        exact this rfl
      simp only [Scan.unpaint]
      cases hn' : tokenizeArgNames E as with
      | error e => rfl
      | ok names =>
        simp only
        rw [expandFnMacroBody_unpaint ih hT hid hne h6]
        have hsat := expandFnMacroBody_sat (named_stepInv E ms)
          (rec := expandMacroBody E ms k) (fun S ts h => expandMacroBody_sat (named_stepInv E ms) k S ts h)
          (names := S) h2 hn' h3 h6
        cases hc : expandFnMacroBody E (expandMacroBody E ms k) S id names (some args)
            (tokenize E names b) with
        | error e => rfl
        | ok ex =>
          rw [hc] at hsat
          have := ih S S' (pre ++ ex ++ rest) hT ((h4.append hsat).append h5)
          simpa [Res.map] using this
    | varRef pre id b rest =>
      rw [hs] at hg
      obtain ⟨h1, h2, h3, h4, h5⟩ := hg
      have hid : id ≠ n := fun hc => h1 (hc ▸ hT.mem)
      have hne : id ≠ [] := by
        intro hc
        have := hts _ h5
        rw [hc] at this
        exact this rfl
      simp only [Scan.unpaint]
      rw [expandVarMacroBody_unpaint (rec := expandMacroBody E ms k) (rec' := expandMacroBody E ms' k)
        (S := S) (id := id) (fun ts hts => ih _ _ ts (hT.insert hid hne) hts)]
      have hsat := expandVarMacroBody_sat (named_stepInv E ms)
        (rec := expandMacroBody E ms k) (fun S ts h => expandMacroBody_sat (named_stepInv E ms) k S ts h)
        (names := S) (name := id) (b := b)
        (fun t ht => .inr (named_tokenize (E := E) [] b t ht))
      cases hc : expandVarMacroBody E (expandMacroBody E ms k) S id (tokenize E [] b) with
      | error e => rfl
      | ok ex =>
        rw [hc] at hsat
        have := ih S S' (pre ++ ex ++ rest) hT ((h3.append hsat).append h4)
        simpa [Res.map] using this

theorem detokenize_unpaint (k : Nat) : ∀ ts : List Token,
    detokenize k (ts.map (unpaint n)) = detokenize k ts := by
  intro ts
  induction ts with
  | nil => rfl
  | cons t ts ih =>
    simp only [List.map_cons, detokenize, ih]
    have : (unpaint n t).detokenize k = t.detokenize k := by
      unfold unpaint
      split
      · rename_i h; subst h; rfl
      · rfl
    rw [this]

end CMacro
