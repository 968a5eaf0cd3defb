import Verif.Spec.Rename
import Verif.Props.Lex
import Verif.Proofs.Store
import Verif.Proofs.Refine

/-!
# Renaming parameters changes nothing in an expansion
-/

namespace CMacro
open Spec

theorem isIdent_noEscape {E : Env} (L : E.Lawful) {s : Str} (h : IsIdent E.xidStart E.xidContinue s) : '\\' ∉ s := by
  cases s with
  | nil => cases h
  | cons c cs =>
    have hc : E.xidContinue '\\' = false := by rw [L.contAscii '\\' (by decide)]; decide
    intro hm
    rcases List.mem_cons.1 hm with h' | h'
    · subst h'
      rcases h.1 with h | h
      · rw [L.startCont _ h] at hc; cases hc
      · exact absurd h (by decide)
    · rw [h.2 _ h'] at hc; cases hc

theorem fromStr_param {E : Env} (L : E.Lawful) {s : Str} (h : ParamName E s) : Token.fromStr E s = .ident s := by
  unfold Token.fromStr
  rw [if_neg h.2, (C23_identifiers_exact E s s (isIdent_noEscape L h.1)).2 ⟨rfl, h.1⟩]

theorem fromStr_spelled {E : Env} {s id : Str} (hb : '\\' ∉ s) (h : Token.fromStr E s = .ident id) : id = s :=
  ((C23_identifiers_exact E s _ hb).1 (fromStr_ident.1 h).2).1

/-- A parameter with its new name. -/
def renTok (ρ : Str → Str) : Token → Token
  | .ident id => .ident (ρ id)
  | t => t

/-- What becomes of the error: the same, or another name for the same complaint. -/
def AlikeErr (e e' : Fail) : Prop :=
  e = e' ∨ ∃ d d', e = .err (.nonUniqueArgument d) ∧ e' = .err (.nonUniqueArgument d')

variable {E : Env} {ρ : Str → Str} {ps body : List Str}

theorem fromStr_renamed (L : E.Lawful) (h : Renames E ρ ps body) {s : Str} (hs : s ∈ ps) : Token.fromStr E (ρ s) = renTok ρ (Token.fromStr E s) := by
  by_cases hr : ρ s = s
  · rw [hr]
    cases hf : Token.fromStr E s with
    | ident id => rw [fromStr_spelled (h.noEscape s hs) hf, renTok, hr]
    | _ => rfl
  · obtain ⟨_, h1, h2⟩ := h.only s hr
    rw [fromStr_param L h1, fromStr_param L h2]
    rfl

/-- The parameters read so far come from the list. -/
def FromList (ps : List Str) (acc : List Token) : Prop := ∀ id, Token.ident id ∈ acc → id ∈ ps

theorem mem_renTok (h : Renames E ρ ps body) {acc : List Token} (ha : FromList ps acc) {s : Str} (hs : s ∈ ps) :
    Token.ident (ρ s) ∈ acc.map (renTok ρ) ↔ Token.ident s ∈ acc := by
  constructor
  · intro hm
    obtain ⟨t, ht, he⟩ := List.mem_map.1 hm
    cases t with
    | ident id =>
      rw [← h.apart id (List.mem_append_left _ (ha id ht)) s (List.mem_append_left _ hs) (Token.ident.inj he)]
      exact ht
    | _ => cases he
  · exact fun hm => List.mem_map.2 ⟨_, hm, rfl⟩

/-- The parameter lists are read alike. -/
def ArgNames (ρ : Str → Str) (ps : List Str) : Res (List Token) → Res (List Token) → Prop
  | .ok a, r' => r' = .ok (a.map (renTok ρ)) ∧ FromList ps a
  | .error e, .error e' => AlikeErr e e'
  | .error _, .ok _ => False

theorem argNames_go (L : E.Lawful) (h : Renames E ρ ps body) : ∀ (rest : List Str) (v : Bool) (acc : List Token), (∀ s ∈ rest, s ∈ ps) →
    FromList ps acc → ArgNames ρ ps (tokenizeArgNamesGo E v acc rest) (tokenizeArgNamesGo E v (acc.map (renTok ρ)) (rest.map ρ))
  | [], v, acc, _, ha => ⟨rfl, ha⟩
  | s :: rest, v, acc, hr, ha => by
    have hs := hr s List.mem_cons_self
    have hr' : ∀ s ∈ rest, s ∈ ps := fun t ht => hr t (List.mem_cons_of_mem _ ht)
    have e1 : ∀ t, acc.map (renTok ρ) ++ [renTok ρ t] = (acc ++ [t]).map (renTok ρ) := fun t => by simp
    rw [List.map_cons, tokenizeArgNamesGo, tokenizeArgNamesGo, fromStr_renamed L h hs]
    cases hf : Token.fromStr E s with
    | ident id =>
      obtain rfl := fromStr_spelled (h.noEscape s hs) hf
      simp only [renTok]
      by_cases hv : v = true
      · rw [if_pos hv, if_pos hv]
        exact .inl rfl
      · rw [if_neg hv, if_neg hv]
        by_cases hm : Token.ident id ∈ acc
        · rw [if_pos hm, if_pos ((mem_renTok h ha hs).2 hm)]
          exact .inr ⟨_, _, rfl, rfl⟩
        · rw [if_neg hm, if_neg (fun hm' => hm ((mem_renTok h ha hs).1 hm'))]
          have := argNames_go L h rest v (acc ++ [.ident id]) hr' (fun i hi => by
            rcases List.mem_append.1 hi with hi | hi
            · exact ha i hi
            · simp only [List.mem_singleton, Token.ident.injEq] at hi
              rw [hi]; exact hs)
          rwa [← e1] at this
    | punct p =>
      simp only [renTok]
      by_cases hp : p = c!"..."
      · rw [if_pos hp, if_pos hp]
        by_cases hv : v = true
        · rw [if_pos hv, if_pos hv]
          exact .inl rfl
        · rw [if_neg hv, if_neg hv]
          have := argNames_go L h rest true (acc ++ [.punct p]) hr' (fun i hi => by
            rcases List.mem_append.1 hi with hi | hi
            · exact ha i hi
            · simp at hi)
          rwa [← e1] at this
      · rw [if_neg hp, if_neg hp]
        exact .inl rfl
    | comment c =>
      have := argNames_go L h rest v (acc ++ [.comment c]) hr' (fun i hi => by
        rcases List.mem_append.1 hi with hi | hi
        · exact ha i hi
        · simp at hi)
      rwa [← e1] at this
    | _ => exact .inl rfl

theorem argNames_all (L : E.Lawful) (h : Renames E ρ ps body) : ArgNames ρ ps (tokenizeArgNames E ps) (tokenizeArgNames E (ps.map ρ)) :=
  argNames_go L h ps false [] (fun _ h => h) (by rintro _ ⟨⟩)

/-- Every name in the list is read as a parameter. -/
theorem argNames_has : ∀ (rest : List Str) (v : Bool) (acc a : List Token) {s : Str}, tokenizeArgNamesGo E v acc rest = .ok a →
    (∀ t ∈ acc, t ∈ a) ∧ (s ∈ rest → Token.fromStr E s = .ident s → Token.ident s ∈ a)
  | [], _, acc, a, s, h => by
    cases h
    exact ⟨fun _ h => h, by rintro ⟨⟩⟩
  | r :: rest, v, acc, a, s, h => by
    rw [tokenizeArgNamesGo] at h
    have step : ∀ (v' : Bool) (t : Token), tokenizeArgNamesGo E v' (acc ++ [t]) rest = .ok a → Token.fromStr E r = t →
        (∀ t ∈ acc, t ∈ a) ∧ (s ∈ r :: rest → Token.fromStr E s = .ident s → Token.ident s ∈ a) := by
      intro v' t h ht
      obtain ⟨h1, h2⟩ := argNames_has rest v' _ a (s := s) h
      refine ⟨fun t' h' => h1 t' (List.mem_append_left _ h'), fun hs hf => ?_⟩
      rcases List.mem_cons.1 hs with rfl | hs
      · exact h1 _ (by rw [← hf, ht]; simp)
      · exact h2 hs hf
    split at h
    · next id hf =>
      split at h
      · cases h
      · split at h
        · cases h
        · exact step _ _ h hf
    · next p hf =>
      split at h
      · split at h
        · cases h
        · exact step _ _ h hf
      · cases h
    · next c hf => exact step _ _ h hf
    · cases h

theorem isParam_renTok (t : Token) : (renTok ρ t).isParam = t.isParam := by cases t <;> rfl

theorem filter_renTok (a : List Token) : (a.map (renTok ρ)).filter Token.isParam = (a.filter Token.isParam).map (renTok ρ) := by
  rw [List.filter_map]
  congr 1
  exact List.filter_congr fun t _ => isParam_renTok t

theorem findIdx_renTok (h : Renames E ρ ps body) {t : Str} (ht : t ∈ body) : ∀ {a : List Token}, FromList ps a →
    (a.map (renTok ρ)).findIdx? (Token.isIdentNamed (ρ t)) = a.findIdx? (Token.isIdentNamed t)
  | [], _ => rfl
  | x :: a, ha => by
    have hx : Token.isIdentNamed (ρ t) (renTok ρ x) = Token.isIdentNamed t x := by
      cases x with
      | ident id =>
        simp only [renTok, Token.isIdentNamed, decide_eq_decide]
        constructor
        · exact fun he => h.apart id (List.mem_append_left _ (ha id List.mem_cons_self)) t (List.mem_append_right _ ht) he
        · exact fun he => by rw [he]
      | _ => rfl
    rw [List.map_cons, List.findIdx?_cons, List.findIdx?_cons, hx, findIdx_renTok h ht (a := a) fun i hi => ha i (List.mem_cons_of_mem _ hi)]

theorem tokenize_renamed (L : E.Lawful) (h : Renames E ρ ps body) {a : List Token} (ha : tokenizeArgNames E ps = .ok a) (hf : FromList ps a) :
    tokenize E (a.map (renTok ρ)) (body.map ρ) = tokenize E a body := by
  unfold tokenize
  rw [List.map_map]
  refine List.map_congr_left fun t ht => ?_
  rw [Function.comp_apply, tokenizeOne, tokenizeOne, filter_renTok,
    findIdx_renTok h ht (a := a.filter Token.isParam) fun i hi => hf i ((List.mem_filter.1 hi).1)]
  cases hi : (a.filter Token.isParam).findIdx? (Token.isIdentNamed t) with
  | some i => rfl
  | none =>
    by_cases hr : ρ t = t
    · rw [hr]
    · obtain ⟨h1, h2, _⟩ := h.only t hr
      have := (argNames_has ps false [] a ha).2 h1 (fromStr_param L h2)
      rw [List.findIdx?_eq_none_iff] at hi
      have := hi _ (List.mem_filter.2 ⟨this, rfl⟩)
      simp [Token.isIdentNamed] at this

/-! ## No duplicates are left -/

theorem noDots (L : E.Lawful) {s : Str} (hb : '\\' ∉ s) (h : Token.fromStr E s = .ident c!"...") : False := by
  obtain rfl := fromStr_spelled hb h
  have := ((C23_identifiers_exact E _ _ hb).1 (fromStr_ident.1 h).2).2.1
  rcases this with h | h
  · have := L.startCont _ h
    rw [L.contAscii '.' (by decide)] at this
    exact absurd this (by decide)
  · exact absurd h (by decide)

theorem nodup_go (L : E.Lawful) : ∀ (rest : List Str) (v : Bool) (acc a : List Token), (∀ s ∈ rest, '\\' ∉ s) →
    tokenizeArgNamesGo E v acc rest = .ok a → (acc.filterMap Token.paramName).Nodup → (c!"..." ∈ acc.filterMap Token.paramName → v = true) →
    (∀ t ∈ acc, ∀ p, t = .punct p → p = c!"...") → (∀ t ∈ acc, t ≠ .ident c!"...") → (a.filterMap Token.paramName).Nodup
  | [], _, acc, a, _, h, h1, _, _, _ => by cases h; exact h1
  | r :: rest, v, acc, a, hb, h, h1, h2, h3, h4 => by
    have hb' : ∀ s ∈ rest, '\\' ∉ s := fun s hs => hb s (List.mem_cons_of_mem _ hs)
    rw [tokenizeArgNamesGo] at h
    split at h
    · next id hf =>
      have hid : id ≠ c!"..." := by
        rintro rfl
        exact noDots L (hb r List.mem_cons_self) hf
      split at h
      · cases h
      · split at h
        · cases h
        · next hv hm =>
          refine nodup_go L rest v _ a hb' h ?_ ?_ ?_ ?_
          · rw [List.filterMap_append]
            refine List.nodup_append.2 ⟨h1, by simp [Token.paramName], fun x hx y hy => ?_⟩
            simp only [List.filterMap_cons, Token.paramName, List.filterMap_nil, List.mem_singleton] at hy
            subst hy
            rintro rfl
            obtain ⟨t, ht, he⟩ := List.mem_filterMap.1 hx
            cases t with
            | ident i => cases he; exact hm ht
            | punct p => cases he; exact hid (h3 _ ht _ rfl)
            | _ => cases he
          · rw [List.filterMap_append]
            intro hd
            rcases List.mem_append.1 hd with hd | hd
            · exact h2 hd
            · simp only [List.filterMap_cons, Token.paramName, List.filterMap_nil, List.mem_singleton] at hd
              exact absurd hd.symm hid
          · intro t ht p he
            rcases List.mem_append.1 ht with ht | ht
            · exact h3 t ht p he
            · simp only [List.mem_singleton] at ht
              rw [ht] at he; cases he
          · intro t ht
            rcases List.mem_append.1 ht with ht | ht
            · exact h4 t ht
            · simp only [List.mem_singleton] at ht
              rw [ht]
              exact fun he => hid (Token.ident.inj he)
    · next p hf =>
      split at h
      · next hp =>
        split at h
        · cases h
        · next hv =>
          subst hp
          refine nodup_go L rest true _ a hb' h ?_ (fun _ => rfl) ?_ ?_
          · rw [List.filterMap_append]
            refine List.nodup_append.2 ⟨h1, by simp [Token.paramName], fun x hx y hy => ?_⟩
            simp only [List.filterMap_cons, Token.paramName, List.filterMap_nil, List.mem_singleton] at hy
            subst hy
            rintro rfl
            exact hv (h2 hx)
          · intro t ht p he
            rcases List.mem_append.1 ht with ht | ht
            · exact h3 t ht p he
            · simp only [List.mem_singleton] at ht
              rw [ht] at he; cases he; rfl
          · intro t ht
            rcases List.mem_append.1 ht with ht | ht
            · exact h4 t ht
            · simp only [List.mem_singleton] at ht
              rw [ht]
              rintro ⟨⟩
      · cases h
    · next c hf =>
      refine nodup_go L rest v _ a hb' h ?_ ?_ ?_ ?_
      · rw [List.filterMap_append, show [Token.comment c].filterMap Token.paramName = [] from rfl, List.append_nil]; exact h1
      · rw [List.filterMap_append, show [Token.comment c].filterMap Token.paramName = [] from rfl, List.append_nil]; exact h2
      · intro t ht p he
        rcases List.mem_append.1 ht with ht | ht
        · exact h3 t ht p he
        · simp only [List.mem_singleton] at ht
          rw [ht] at he; cases he
      · intro t ht
        rcases List.mem_append.1 ht with ht | ht
        · exact h4 t ht
        · simp only [List.mem_singleton] at ht
          rw [ht]
          rintro ⟨⟩
    · cases h

theorem noDuplicate (L : E.Lawful) {qs : List Str} {a : List Token} (hb : ∀ s ∈ qs, '\\' ∉ s) (h : tokenizeArgNames E qs = .ok a) :
    firstDuplicate ((a.filter Token.isNotComment).filterMap Token.paramName) = none := by
  have := nodup_go L qs false [] a hb h .nil (by rintro ⟨⟩) (by rintro _ ⟨⟩) (by rintro _ ⟨⟩)
  have e : (a.filter Token.isNotComment).filterMap Token.paramName = a.filterMap Token.paramName := by
    rw [List.filterMap_filter]
    congr 1
    funext t
    cases t <;> rfl
  rw [e]
  exact firstDuplicate_none this

theorem noEscape_renamed (L : E.Lawful) (h : Renames E ρ ps body) : ∀ s ∈ ps.map ρ, '\\' ∉ s := by
  intro s hs
  obtain ⟨t, ht, rfl⟩ := List.mem_map.1 hs
  by_cases hr : ρ t = t
  · rw [hr]; exact h.noEscape t ht
  · exact isIdent_noEscape L (h.only t hr).2.2.1

/-! ## Expansion -/

theorem Spec.Alike.refl {α : Type} (r : Res α) : Alike r r := .inl rfl

theorem Spec.Alike.error {α β : Type} {e e' : Fail} (h : Alike (.error e : Res α) (.error e')) : Alike (.error e : Res β) (.error e') := by
  rcases h with h | ⟨d, d', h1, h2⟩
  · cases h; exact .inl rfl
  · cases h1; cases h2; exact .inr ⟨d, d', rfl, rfl⟩

/-- Alike results are the same result, or alike errors. -/
theorem Spec.Alike.split {α : Type} {r r' : Res α} (h : Alike r r') :
    (∃ a, r = .ok a ∧ r' = .ok a) ∨ ∃ e e', r = .error e ∧ r' = .error e' ∧ ∀ β : Type, Alike (.error e : Res β) (.error e') := by
  rcases h with rfl | ⟨d, d', rfl, rfl⟩
  · cases r with
    | error e => exact .inr ⟨e, e, rfl, rfl, fun _ => .inl rfl⟩
    | ok a => exact .inl ⟨a, rfl, rfl⟩
  · exact .inr ⟨_, _, rfl, rfl, fun _ => .inr ⟨d, d', rfl, rfl⟩⟩

theorem alike_arguments {rec rec' : List Token → Res (List Token)} (h : ∀ t, Alike (rec t) (rec' t)) (nested : Bool)
    {names names' : List Token} (hn : names.length = names'.length) (args : List (List Token)) : ∀ (ts out : List Token),
    Alike (expandArguments E rec nested names args out ts) (expandArguments E rec' nested names' args out ts)
  | [], out => .inl rfl
  | t :: ts, out => by
    rw [expandArguments, expandArguments]
    by_cases h1 : t = .punct c!"#"
    · rw [if_pos h1, if_pos h1]
      split
      · exact alike_arguments h nested hn args ts _
      · exact .inl rfl
    · rw [if_neg h1, if_neg h1]
      by_cases h2 : t.isArg = true
      · rw [if_pos h2, if_pos h2]
        have hs : selectArg names args t = selectArg names' args t := by
          unfold selectArg
          rw [hn]
        rw [hs]
        cases selectArg names' args t with
        | error e => exact .inl rfl
        | ok arg =>
          dsimp only
          have hp : Alike (placeArg E rec nested out arg ts) (placeArg E rec' nested out arg ts) := by
            unfold placeArg
            split
            · exact .inl rfl
            · rcases (h arg).split with ⟨a, e1, e2⟩ | ⟨e, e', e1, e2, he⟩
              · rw [e1, e2]; exact .inl rfl
              · rw [e1, e2]; exact he _
          rcases hp.split with ⟨a, e1, e2⟩ | ⟨e, e', e1, e2, he⟩
          · rw [e1, e2]; exact alike_arguments h nested hn args ts a
          · rw [e1, e2]; exact he _
      · rw [if_neg h2, if_neg h2]
        exact alike_arguments h nested hn args ts _

theorem isNotComment_renTok (t : Token) : (renTok ρ t).isNotComment = t.isNotComment := by cases t <;> rfl

theorem filter_notComment_renTok (a : List Token) : (a.map (renTok ρ)).filter Token.isNotComment = (a.filter Token.isNotComment).map (renTok ρ) := by
  rw [List.filter_map]
  congr 1
  exact List.filter_congr fun t _ => isNotComment_renTok t

theorem isVariadic_renTok (a : List Token) : isVariadic (a.map (renTok ρ)) = isVariadic a := by
  unfold isVariadic
  rw [List.getLast?_map]
  cases a.getLast? with
  | none => rfl
  | some t => cases t <;> simp [renTok]

theorem alike_fn {rec rec' : List Str → List Token → Res (List Token)} (h : ∀ names t, Alike (rec names t) (rec' names t))
    (names : List Str) (name : Str) {a : List Token} (args : Option (List (List Token))) (ts : List Token)
    (h1 : firstDuplicate ((a.filter Token.isNotComment).filterMap Token.paramName) = none)
    (h2 : firstDuplicate (((a.map (renTok ρ)).filter Token.isNotComment).filterMap Token.paramName) = none) :
    Alike (expandFnMacroBody E rec names name a args ts) (expandFnMacroBody E rec' names name (a.map (renTok ρ)) args ts) := by
  unfold expandFnMacroBody
  dsimp only
  rw [h1, h2, filter_notComment_renTok, isVariadic_renTok]
  have hm : arityMismatch ((a.filter Token.isNotComment).map (renTok ρ)) = arityMismatch (a.filter Token.isNotComment) := by
    funext args
    unfold arityMismatch
    simp
  rw [hm, List.length_map]
  split
  · exact .inl rfl
  · split
    · exact .inl rfl
    · cases args with
      | none =>
        dsimp only
        cases expandConcat E ts with
        | error e => exact .inl rfl
        | ok b => exact h _ _
      | some args =>
        dsimp only
        rcases (alike_arguments (E := E) (h names) (decide (names.length > 1))
          (names := a.filter Token.isNotComment) (names' := (a.filter Token.isNotComment).map (renTok ρ)) (by simp) args ts []).split with ⟨b, e1, e2⟩ | ⟨e, e', e1, e2, he⟩
        · rw [e1, e2]
          dsimp only
          cases expandConcat E b with
          | error e => exact .inl rfl
          | ok b => exact h _ _
        · rw [e1, e2]; exact he _

theorem alike_var {rec rec' : List Str → List Token → Res (List Token)} (h : ∀ names t, Alike (rec names t) (rec' names t))
    (names : List Str) (name : Str) (ts : List Token) :
    Alike (expandVarMacroBody E rec names name ts) (expandVarMacroBody E rec' names name ts) := by
  unfold expandVarMacroBody
  split
  · exact .inl rfl
  · cases expandConcat E ts with
    | error e => exact .inl rfl
    | ok b => exact h _ _

/-- The two sets of definitions agree up to the names of parameters. -/
def SameSet (E : Env) (ms ms' : MacroSet) : Prop :=
  ms.var.get = ms'.var.get ∧ ∀ id, (ms.fn.get id = none ∧ ms'.fn.get id = none) ∨
    ∃ ρ ps b, Renames E ρ ps b ∧ ms.fn.get id = some (ps, b) ∧ ms'.fn.get id = some (ps.map ρ, b.map ρ)

/-- The scans find the same. -/
inductive SameScan (E : Env) : Scan → Scan → Prop
  | done {out} : SameScan E (.done out) (.done out)
  | fnCall {pre id ρ ps b args rest} : Renames E ρ ps b → SameScan E (.fnCall pre id ps b args rest) (.fnCall pre id (ps.map ρ) (b.map ρ) args rest)
  | varRef {pre id b rest} : SameScan E (.varRef pre id b rest) (.varRef pre id b rest)

theorem sameScan_push {s s' : Scan} (t : Token) (h : SameScan E s s') : SameScan E (s.push t) (s'.push t) := by
  cases h with
  | done => exact .done
  | fnCall h => exact .fnCall h
  | varRef => exact .varRef

theorem sameScan {ms ms' : MacroSet} (h : SameSet E ms ms') (names : List Str) : ∀ ts, SameScan E (scan ms names ts) (scan ms' names ts)
  | [] => .done
  | t :: rest => by
    have ih := sameScan h names rest
    cases t with
    | ident id =>
      rw [scan, scan]
      by_cases hn : id ∈ names
      · rw [if_pos hn, if_pos hn]
        exact sameScan_push _ ih
      · rw [if_neg hn, if_neg hn]
        have hv : SameScan E
            (match ms.var.get id with | some body => .varRef [] id body rest | none => (scan ms names rest).push (.ident id))
            (match ms'.var.get id with | some body => .varRef [] id body rest | none => (scan ms' names rest).push (.ident id)) := by
          rw [h.1]
          cases ms'.var.get id with
          | some b => exact .varRef
          | none => exact sameScan_push _ ih
        unfold fnCallAt
        by_cases hp : rest.head? = some (.punct c!"(")
        · rw [if_pos hp, if_pos hp]
          rcases h.2 id with ⟨h1, h2⟩ | ⟨ρ, ps, b, hr, h1, h2⟩
          · rw [h1, h2]
            exact hv
          · rw [h1, h2]
            dsimp only
            cases collectArgs rest with
            | none => exact hv
            | some r => exact .fnCall hr
        · rw [if_neg hp, if_neg hp]
          exact hv
    | _ => exact sameScan_push _ ih

theorem alike_body (L : E.Lawful) {ms ms' : MacroSet} (h : SameSet E ms ms') : ∀ (n : Nat) (names : List Str) (ts : List Token),
    Alike (expandMacroBody E ms n names ts) (expandMacroBody E ms' n names ts)
  | 0, _, _ => .inl rfl
  | n + 1, names, ts => by
    have ih := alike_body L h n
    rw [expandMacroBody, expandMacroBody]
    have hs := sameScan h names ts
    generalize scan ms names ts = s, scan ms' names ts = s' at hs
    cases hs with
    | done => exact .inl rfl
    | @fnCall pre id ρ ps b args rest hr =>
      dsimp only
      have ha := argNames_all L hr
      have h2 := fun a => noDuplicate (a := a) L (noEscape_renamed L hr)
      cases h1 : tokenizeArgNames E ps with
      | error e =>
        rw [h1] at ha
        cases h3 : tokenizeArgNames E (ps.map ρ) with
        | ok a => rw [h3] at ha; exact ha.elim
        | error e' =>
          rw [h3] at ha
          rcases ha with rfl | ⟨d, d', rfl, rfl⟩
          · exact .inl rfl
          · exact .inr ⟨d, d', rfl, rfl⟩
      | ok a =>
        rw [h1] at ha
        obtain ⟨h3, hf⟩ := ha
        rw [h3]
        dsimp only
        rw [tokenize_renamed L hr h1 hf]
        rcases (alike_fn ih names id (some args) (tokenize E a b) (noDuplicate L hr.noEscape h1) (h2 _ h3)).split with
          ⟨ex, e1, e2⟩ | ⟨e, e', e1, e2, he⟩
        · rw [e1, e2]; exact ih _ _
        · rw [e1, e2]; exact he _
    | @varRef pre id b rest =>
      dsimp only
      rcases (alike_var ih names id (tokenize E [] b)).split with ⟨ex, e1, e2⟩ | ⟨e, e', e1, e2, he⟩
      · rw [e1, e2]; exact ih _ _
      · rw [e1, e2]; exact he _

theorem sameSet {h h' : List Op} (hs : ∀ n, SameDef E (Table.run h n) (Table.run h' n)) : SameSet E (MacroSet.run h) (MacroSet.run h') := by
  refine ⟨funext fun id => ?_, fun id => ?_⟩
  · rw [(agrees_run h id).1, (agrees_run h' id).1]
    have := hs id
    generalize Table.run h id = d, Table.run h' id = d' at this
    cases this <;> rfl
  · rw [(agrees_run h id).2, (agrees_run h' id).2]
    have := hs id
    generalize Table.run h id = d, Table.run h' id = d' at this
    cases this with
    | none => exact .inl ⟨rfl, rfl⟩
    | var => exact .inl ⟨rfl, rfl⟩
    | fn hr => exact .inr ⟨_, _, _, hr, rfl, rfl⟩

/-- The parameter list comes out with the new names. -/
theorem detokenize_renTok : ∀ (a : List Token) (as : List MacroToken), (∀ t ∈ a, (∃ s, t = .ident s) ∨ (∃ s, t = .punct s) ∨ ∃ s, t = .comment s) →
    detokenize 0 a = .ok as → detokenize 0 (a.map (renTok ρ)) = .ok (as.map (renamedToken ρ))
  | [], as, _, h => by cases h; rfl
  | t :: a, as, hk, h => by
    have ih := detokenize_renTok a
    cases hd : detokenize 0 a with
    | error e =>
      rcases hk t List.mem_cons_self with ⟨s, rfl⟩ | ⟨s, rfl⟩ | ⟨s, rfl⟩ <;>
        (rw [detokenize, hd] at h; cases h)
    | ok as' =>
      have ih := ih as' (fun t ht => hk t (List.mem_cons_of_mem _ ht)) hd
      rcases hk t List.mem_cons_self with ⟨s, rfl⟩ | ⟨s, rfl⟩ | ⟨s, rfl⟩ <;>
        (rw [detokenize, hd] at h; cases h; rw [List.map_cons, detokenize, ih]; rfl)

theorem kinds_go : ∀ (rest : List Str) (v : Bool) (acc a : List Token), tokenizeArgNamesGo E v acc rest = .ok a →
    (∀ t ∈ acc, (∃ s, t = .ident s) ∨ (∃ s, t = .punct s) ∨ ∃ s, t = .comment s) →
    ∀ t ∈ a, (∃ s, t = .ident s) ∨ (∃ s, t = .punct s) ∨ ∃ s, t = .comment s
  | [], _, acc, a, h, hk => by cases h; exact hk
  | r :: rest, v, acc, a, h, hk => by
    have hp : ∀ x : Token, ((∃ s, x = .ident s) ∨ (∃ s, x = .punct s) ∨ ∃ s, x = .comment s) →
        ∀ t ∈ acc ++ [x], (∃ s, t = .ident s) ∨ (∃ s, t = .punct s) ∨ ∃ s, t = .comment s := by
      intro x hx t ht
      rcases List.mem_append.1 ht with ht | ht
      · exact hk t ht
      · rw [List.mem_singleton.1 ht]; exact hx
    rw [tokenizeArgNamesGo] at h
    split at h
    · split at h
      · cases h
      · split at h
        · cases h
        · exact kinds_go rest _ _ a h (hp _ (.inl ⟨_, rfl⟩))
    · split at h
      · split at h
        · cases h
        · exact kinds_go rest _ _ a h (hp _ (.inr (.inl ⟨_, rfl⟩)))
      · cases h
    · exact kinds_go rest _ _ a h (hp _ (.inr (.inr ⟨_, rfl⟩)))
    · cases h

theorem detokenize_kinds : ∀ (a : List Token), (∀ t ∈ a, (∃ s, t = .ident s) ∨ (∃ s, t = .punct s) ∨ ∃ s, t = .comment s) →
    ∃ as, detokenize 0 a = .ok as
  | [], _ => ⟨[], rfl⟩
  | t :: a, hk => by
    obtain ⟨as, h⟩ := detokenize_kinds a fun t ht => hk t (List.mem_cons_of_mem _ ht)
    rcases hk t List.mem_cons_self with ⟨s, rfl⟩ | ⟨s, rfl⟩ | ⟨s, rfl⟩ <;> exact ⟨_, by rw [detokenize, h]; rfl⟩

end CMacro
