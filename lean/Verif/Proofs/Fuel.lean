import Verif.Model.MacroSet

/-! # Fuel: more fuel never changes a finished computation -/

namespace CMacro

/-- `r'` agrees with `r` unless `r` has not finished. -/
def Res.Le {α : Type} (r r' : Res α) : Prop := r = .error .diverge ∨ r' = r

theorem Res.Le.refl {α : Type} (r : Res α) : Res.Le r r := .inr rfl

theorem Res.Le.trans {α : Type} {a b c : Res α} (h : Res.Le a b) (h' : Res.Le b c) : Res.Le a c := by
  rcases h with h | h
  · exact .inl h
  · subst h; exact h'

theorem Res.Le.eq {α : Type} {r r' : Res α} (h : Res.Le r r') (hd : r ≠ .error .diverge) : r' = r :=
  h.resolve_left hd

theorem placeArg_mono {E : Env} {rec rec' : List Token → Res (List Token)}
    (h : ∀ t, Res.Le (rec t) (rec' t)) (nested : Bool) (out arg rest : List Token) :
    Res.Le (placeArg E rec nested out arg rest) (placeArg E rec' nested out arg rest) := by
  unfold placeArg
  split
  · exact .refl _
  · rcases h arg with h | h
    · rw [h]; exact .inl rfl
    · rw [h]; exact .refl _

theorem expandArguments_mono {E : Env} {rec rec' : List Token → Res (List Token)}
    (h : ∀ t, Res.Le (rec t) (rec' t)) (nested : Bool) (argNames : List Token)
    (args : List (List Token)) (ts : List Token) : ∀ out,
    Res.Le (expandArguments E rec nested argNames args out ts)
      (expandArguments E rec' nested argNames args out ts) := by
  induction ts with
  | nil => intro out; exact .refl _
  | cons t rest ih =>
    intro out
    simp only [expandArguments]
    split
    · split
      · exact ih _
      · exact .refl _
    · split
      · cases selectArg argNames args t with
        | error e => exact .refl _
        | ok arg =>
          simp only
          rcases placeArg_mono (E := E) h nested out arg rest with h | h
          · rw [h]; exact .inl rfl
          · rw [h]
            cases placeArg E rec nested out arg rest with
            | error e => exact .refl _
            | ok out => exact ih _
      · exact ih _

theorem expandVarMacroBody_mono {E : Env} {rec rec' : List Str → List Token → Res (List Token)}
    (h : ∀ s t, Res.Le (rec s t) (rec' s t)) (names : List Str) (name : Str) (body : List Token) :
    Res.Le (expandVarMacroBody E rec names name body) (expandVarMacroBody E rec' names name body) := by
  unfold expandVarMacroBody
  split
  · exact .refl _
  · cases expandConcat E body with
    | error e => exact .refl _
    | ok b => exact h _ _

theorem expandFnMacroBody_mono {E : Env} {rec rec' : List Str → List Token → Res (List Token)}
    (h : ∀ s t, Res.Le (rec s t) (rec' s t)) (names : List Str) (name : Str)
    (argNames : List Token) (args : Option (List (List Token))) (body : List Token) :
    Res.Le (expandFnMacroBody E rec names name argNames args body)
      (expandFnMacroBody E rec' names name argNames args body) := by
  unfold expandFnMacroBody
  simp only
  split
  · exact .refl _
  · split
    · exact .refl _
    · split
      · exact .refl _
      · cases args with
        | none =>
          simp only
          cases expandConcat E body with
          | error e => exact .refl _
          | ok b => exact h _ _
        | some args =>
          simp only
          rcases expandArguments_mono (E := E) (h names) (decide (names.length > 1))
            (List.filter Token.isNotComment argNames) args body [] with h' | h'
          · rw [h']; exact .inl rfl
          · rw [h']
            cases expandArguments E (rec names) (decide (names.length > 1))
              (List.filter Token.isNotComment argNames) args [] body with
            | error e => exact .refl _
            | ok b =>
              simp only
              cases expandConcat E b with
              | error e => exact .refl _
              | ok b => exact h _ _

theorem expandMacroBody_succ (E : Env) (ms : MacroSet) (n : Nat) : ∀ names ts,
    Res.Le (expandMacroBody E ms n names ts) (expandMacroBody E ms (n + 1) names ts) := by
  induction n with
  | zero => intro names ts; exact .inl rfl
  | succ n ih =>
    intro names ts
    rw [expandMacroBody]
    conv => rhs; rw [expandMacroBody]
    cases scan ms names ts with
    | done out => exact .refl _
    | fnCall pre id argNames body args rest =>
      simp only
      cases tokenizeArgNames E argNames with
      | error e => exact .refl _
      | ok as =>
        simp only
        rcases expandFnMacroBody_mono (E := E) ih names id as (some args) (tokenize E as body)
          with h | h
        · rw [h]; exact .inl rfl
        · rw [h]
          cases expandFnMacroBody E (expandMacroBody E ms n) names id as (some args)
            (tokenize E as body) with
          | error e => exact .refl _
          | ok ex => exact ih _ _
    | varRef pre id body rest =>
      simp only
      rcases expandVarMacroBody_mono (E := E) ih names id (tokenize E [] body) with h | h
      · rw [h]; exact .inl rfl
      · rw [h]
        cases expandVarMacroBody E (expandMacroBody E ms n) names id (tokenize E [] body) with
        | error e => exact .refl _
        | ok ex => exact ih _ _

theorem expandMacroBody_le (E : Env) (ms : MacroSet) {n m : Nat} (h : n ≤ m) (names : List Str)
    (ts : List Token) :
    Res.Le (expandMacroBody E ms n names ts) (expandMacroBody E ms m names ts) := by
  induction h with
  | refl => exact .refl _
  | step _ ih => exact ih.trans (expandMacroBody_succ E ms _ names ts)

theorem expand_le (E : Env) (ms : MacroSet) {n m : Nat} (h : n ≤ m) (body : List Str) :
    Res.Le (ms.expand E n body) (ms.expand E m body) := by
  unfold MacroSet.expand
  rcases expandVarMacroBody_mono (E := E) (expandMacroBody_le E ms h) [] [] (tokenize E [] body)
    with h | h
  · rw [h]; exact .inl rfl
  · rw [h]; exact .refl _

theorem expandVar_le (E : Env) (ms : MacroSet) {n m : Nat} (h : n ≤ m) (name : Str) :
    Res.Le (ms.expandVar E n name) (ms.expandVar E m name) := by
  unfold MacroSet.expandVar
  split
  · exact .refl _
  · rename_i body _
    rcases expandVarMacroBody_mono (E := E) (expandMacroBody_le E ms h) [] name
      (tokenize E [] body) with h | h
    · rw [h]; exact .inl rfl
    · rw [h]; exact .refl _

theorem expandFn_le (E : Env) (ms : MacroSet) {n m : Nat} (h : n ≤ m) (name : Str) :
    Res.Le (ms.expandFn E n name) (ms.expandFn E m name) := by
  unfold MacroSet.expandFn
  split
  · exact .refl _
  · rename_i argNames body _
    split
    · exact .refl _
    · rename_i as _
      rcases expandFnMacroBody_mono (E := E) (expandMacroBody_le E ms h) [] name as none
        (tokenize E as body) with h | h
      · rw [h]; exact .inl rfl
      · rw [h]; exact .refl _

theorem popNonComment_length : ∀ {ts t r}, popNonComment ts = some (t, r) → r.length < ts.length
  | [], _, _, h => by simp [popNonComment] at h
  | .comment _ :: ts, _, _, h => by
    simp only [popNonComment] at h
    have := popNonComment_length h
    simp; omega
  | .nonRepl _ :: ts, _, _, h | .macroArg _ :: ts, _, _, h | .varArgs :: ts, _, _, h
  | .punct _ :: ts, _, _, h | .ident _ :: ts, _, _, h | .identCont _ :: ts, _, _, h
  | .lit _ _ :: ts, _, _, h | .plain _ :: ts, _, _, h | .placemarker :: ts, _, _, h => by
    simp only [popNonComment, Option.some.injEq, Prod.mk.injEq] at h
    simp [← h.2]

theorem concat_ne_diverge (E : Env) (a b : Token) : a.concat E b ≠ .error .diverge := by
  unfold Token.concat concatCore concatPunctLit concatIdentLit concatGeneral
  intro h
  repeat' split at h
  all_goals simp at h
  all_goals (split at h <;> simp at h)

/-- `expand_concat` always finishes. -/
theorem expandConcatGo_ne_diverge (E : Env) : ∀ n out ts, ts.length < n →
    expandConcatGo E n out ts ≠ .error .diverge := by
  intro n
  induction n with
  | zero => intro out ts h; omega
  | succ n ih =>
    intro out ts h
    cases ts with
    | nil => simp [expandConcatGo]
    | cons t rest =>
      simp only [List.length_cons] at h
      have hr : rest.length < n := by omega
      unfold expandConcatGo
      split
      · split
        · simp
        · split
          · split
            · exact ih _ _ hr
            · rename_i e he
              intro hd; cases hd; exact concat_ne_diverge _ _ _ he
          · split
            · simp
            · rename_i hp
              have := popNonComment_length hp
              split
              · exact ih _ _ (by omega)
              · rename_i e he
                intro hd; cases hd; exact concat_ne_diverge _ _ _ he
      · exact ih _ _ hr

theorem expandConcat_ne_diverge (E : Env) (ts : List Token) :
    expandConcat E ts ≠ .error .diverge :=
  expandConcatGo_ne_diverge E _ _ _ (Nat.lt_succ_self _)

end CMacro
