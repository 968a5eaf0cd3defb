import Verif.Proofs.Fuel

/-!
# A general invariant principle for macro expansion

If a predicate on tokens is preserved by each primitive step of expansion, it is
preserved by expansion; if each primitive step can only fail in a given way, expansion
can only fail in that way.
-/

namespace CMacro

/-- The result satisfies `Q` if there is one, the failure satisfies `F` otherwise. -/
def Res.Sat {α : Type} (Q : α → Prop) (F : Fail → Prop) : Res α → Prop
  | .ok a => Q a
  | .error f => F f

/-- All tokens satisfy `P`. -/
abbrev AllTok (P : Token → Prop) (ts : List Token) : Prop := ∀ t ∈ ts, P t

theorem AllTok.nil {P : Token → Prop} : AllTok P [] := fun _ h => nomatch h

/-- The primitive steps preserve `P` and fail only with `F`. -/
structure StepInv (E : Env) (ms : MacroSet) (P : Token → Prop) (F : Fail → Prop) : Prop where
  diverge : F .diverge
  concatBegin : F (.err .concatBegin)
  concatEnd : F (.err .concatEnd)
  nonVariadic : F (.err .nonVariadicVarArgs)
  arity : ∀ id as b names args, ms.fn.get id = some (as, b) → tokenizeArgNames E as = .ok names →
    isVariadic (names.filter Token.isNotComment) = false →
    arityMismatch (names.filter Token.isNotComment) args = true →
    F (.err (.fnMacroArgument id (names.filter Token.isNotComment).length args.length))
  nonUnique : ∀ n, F (.err (.nonUniqueArgument n))
  strNonArg : F (.err .stringifyNonArgument)
  argName : F (.err .invalidArgumentName)
  paint : ∀ id, P (.ident id) → P (.nonRepl (.ident id))
  concat : P (.punct c!"##") → ∀ a b, P a → P b →
    ((∀ c, ¬ P (.comment c)) → a.isArg = false ∧ b.isArg = false) → (a.concat E b).Sat P F
  placemarker : P .placemarker
  comma : P (.punct c!",")
  stringify : ∀ nested arg, P (.punct c!"#") → AllTok P arg → AllTok P (stringify E nested arg)
  fnBody : ∀ id as b names, ms.fn.get id = some (as, b) → tokenizeArgNames E as = .ok names →
    ∀ t ∈ tokenize E names b, t.isArg = true ∨ P t
  varBody : ∀ id b, ms.var.get id = some b → ∀ t ∈ tokenize E [] b, t.isArg = true ∨ P t
  select : ∀ id as b names args t, ms.fn.get id = some (as, b) →
    tokenizeArgNames E as = .ok names → args ≠ [] →
    (isVariadic (names.filter Token.isNotComment) = false →
      arityMismatch (names.filter Token.isNotComment) args = false) →
    t ∈ tokenize E names b → t.isArg = true →
    (t = .varArgs → isVariadic (names.filter Token.isNotComment) = true) →
    (selectArg (names.filter Token.isNotComment) args t).Sat (fun _ => True) F

variable {E : Env} {ms : MacroSet} {P : Token → Prop} {F : Fail → Prop}

theorem popNonComment_spec : ∀ {ts t r}, popNonComment ts = some (t, r) →
    (t ∈ ts ∧ ∀ x ∈ r, x ∈ ts) ∧ (ts.head? = some t ∨ ∃ c, Token.comment c ∈ ts)
  | [], _, _, h => by simp [popNonComment] at h
  | .comment c :: ts, _, _, h => by
    simp only [popNonComment] at h
    have := (popNonComment_spec h).1
    refine ⟨⟨List.mem_cons_of_mem _ this.1, fun x hx => List.mem_cons_of_mem _ (this.2 x hx)⟩,
      .inr ⟨c, List.mem_cons_self⟩⟩
  | .nonRepl _ :: ts, _, _, h | .macroArg _ :: ts, _, _, h | .varArgs :: ts, _, _, h
  | .punct _ :: ts, _, _, h | .ident _ :: ts, _, _, h | .identCont _ :: ts, _, _, h
  | .lit _ _ :: ts, _, _, h | .plain _ :: ts, _, _, h | .placemarker :: ts, _, _, h => by
    simp only [popNonComment, Option.some.injEq, Prod.mk.injEq] at h
    obtain ⟨rfl, rfl⟩ := h
    exact ⟨⟨List.mem_cons_self, fun x hx => List.mem_cons_of_mem _ hx⟩, .inl rfl⟩

theorem popNonComment_notArg {ts t r} (h : popNonComment ts = some (t, r))
    (ha : (ts.head?.map Token.isArg).getD false = false)
    (hc : ∀ c, Token.comment c ∉ ts) : t.isArg = false := by
  rcases (popNonComment_spec h).2 with h | ⟨c, h⟩
  · simpa [h] using ha
  · exact absurd h (hc c)

theorem expandConcatGo_sat (H : StepInv E ms P F) : ∀ n out ts, AllTok P out → AllTok P ts →
    (expandConcatGo E n out ts).Sat (AllTok P) F := by
  intro n
  induction n with
  | zero => intro out ts _ _; exact H.diverge
  | succ n ih =>
    intro out ts ho ht
    cases ts with
    | nil => intro t h; exact ho t (by simpa using h)
    | cons t rest =>
      have hr : AllTok P rest := fun x hx => ht x (List.mem_cons_of_mem _ hx)
      have hcons : ∀ {l : List Token} {x : Token}, P x → AllTok P l → AllTok P (x :: l) := by
        intro l x hx hl y hy
        rcases List.mem_cons.1 hy with rfl | hy
        · exact hx
        · exact hl y hy
      unfold expandConcatGo
      split
      · rename_i hc
        split
        · exact H.concatBegin
        · rename_i lhs out' hp
          have hl := popNonComment_spec hp
          have hlP := ho _ hl.1.1
          have ho' : AllTok P out' := fun x hx => ho x (hl.1.2 x hx)
          have hna : (∀ c, ¬ P (.comment c)) → lhs.isArg = false := fun hnc =>
            popNonComment_notArg hp hc.2.1 (fun c hm => hnc c (ho _ hm))
          split
          · have := H.concat (hc.1 ▸ ht t List.mem_cons_self) lhs .placemarker hlP H.placemarker (fun hnc => ⟨hna hnc, rfl⟩)
            split
            · rename_i t' he; rw [he] at this; exact ih _ _ (hcons this ho') hr
            · rename_i e he; rw [he] at this; exact this
          · split
            · exact H.concatEnd
            · rename_i rhs rest' hp'
              have hl' := popNonComment_spec hp'
              have hrP := hr _ hl'.1.1
              have := H.concat (hc.1 ▸ ht t List.mem_cons_self) lhs rhs hlP hrP (fun hnc => ⟨hna hnc,
                popNonComment_notArg hp' hc.2.2 (fun c hm => hnc c (hr _ hm))⟩)
              split
              · rename_i t' he; rw [he] at this
                exact ih _ _ (hcons this ho') (fun x hx => hr x (hl'.1.2 x hx))
              · rename_i e he; rw [he] at this; exact this
      · exact ih _ _ (hcons (ht t List.mem_cons_self) ho) hr

theorem expandConcat_sat (H : StepInv E ms P F) {ts : List Token} (h : AllTok P ts) :
    (expandConcat E ts).Sat (AllTok P) F :=
  expandConcatGo_sat H _ _ _ .nil h

theorem mem_joinArgs {t : Token} {args : List (List Token)} (h : t ∈ joinArgs args) :
    t = .punct c!"," ∨ ∃ a ∈ args, t ∈ a := by
  unfold joinArgs at h
  obtain ⟨l, hl, ht⟩ := List.mem_flatten.1 h
  have : l ∈ args ∨ l = [Token.punct c!","] := by
    clear h ht
    induction args with
    | nil => simp [List.intersperse] at hl
    | cons a as ih =>
      cases as with
      | nil => simp [List.intersperse] at hl; simp [hl]
      | cons b bs =>
        simp only [List.intersperse, List.mem_cons] at hl
        rcases hl with rfl | rfl | hl
        · simp
        · simp
        · rcases ih hl with h | h
          · exact .inl (List.mem_cons_of_mem _ h)
          · exact .inr h
  rcases this with h | rfl
  · exact .inr ⟨l, h, ht⟩
  · exact .inl (by simpa using ht)

theorem selectArg_mem {names : List Token} {args : List (List Token)} {t : Token}
    {a : List Token} (h : selectArg names args t = .ok a) {x : Token} (hx : x ∈ a) :
    x = .punct c!"," ∨ ∃ a' ∈ args, x ∈ a' := by
  have key : ∀ (_ : (if names.length = 0 ∨ args.length < names.length - 1 then
      (.error (.panic .varArgsSlice) : Res (List Token))
    else .ok (joinArgs (args.drop (names.length - 1)))) = .ok a),
      x = .punct c!"," ∨ ∃ a' ∈ args, x ∈ a' := by
    intro h
    split at h
    · simp at h
    · simp only [Except.ok.injEq] at h
      subst h
      rcases mem_joinArgs hx with h | ⟨a, ha, hxa⟩
      · exact .inl h
      · exact .inr ⟨a, List.mem_of_mem_drop ha, hxa⟩
  cases t with
  | macroArg i =>
    simp only [selectArg] at h
    split at h
    · rename_i a' ha
      simp only [Except.ok.injEq] at h
      subst h
      exact .inr ⟨a', List.mem_of_getElem? ha, hx⟩
    · simp at h
  | _ => exact key h

theorem placeArg_sat (H : StepInv E ms P F) {rec : List Token → Res (List Token)}
    (hrec : ∀ ts, AllTok P ts → (rec ts).Sat (AllTok P) F) {nested : Bool}
    {out arg rest : List Token} (ho : AllTok P out) (ha : AllTok P arg) :
    (placeArg E rec nested out arg rest).Sat (AllTok P) F := by
  unfold placeArg
  split
  · rename_i out'
    intro t ht
    rcases List.mem_append.1 ht with h | h
    · exact H.stringify nested arg (ho _ List.mem_cons_self) ha t (by simpa using h)
    · exact ho t (List.mem_cons_of_mem _ h)
  · have := hrec arg ha
    split
    · rename_i e he; rw [he] at this; exact this
    · rename_i a he; rw [he] at this
      split
      · intro t ht
        rcases List.mem_cons.1 ht with rfl | h
        · exact H.placemarker
        · exact ho t h
      · intro t ht
        rcases List.mem_append.1 ht with h | h
        · exact this t (by simpa using h)
        · exact ho t h

theorem expandArguments_sat (H : StepInv E ms P F) {rec : List Token → Res (List Token)}
    (hrec : ∀ ts, AllTok P ts → (rec ts).Sat (AllTok P) F) {nested : Bool}
    {names : List Token} {args : List (List Token)} (hargs : ∀ a ∈ args, AllTok P a)
    {body : List Token}
    (hsel : ∀ t ∈ body, t.isArg = true → (selectArg names args t).Sat (fun _ => True) F)
    (hb : ∀ t ∈ body, t.isArg = true ∨ P t) : ∀ out, AllTok P out →
    (expandArguments E rec nested names args out body).Sat (AllTok P) F := by
  induction body with
  | nil => intro out ho t ht; exact ho t (by simpa using ht)
  | cons t rest ih =>
    intro out ho
    have ih := ih (fun x hx => hsel x (List.mem_cons_of_mem _ hx))
      (fun x hx => hb x (List.mem_cons_of_mem _ hx))
    have hpush : t.isArg = false → AllTok P (t :: out) := by
      intro h x hx
      rcases List.mem_cons.1 hx with rfl | hx
      · exact (hb x List.mem_cons_self).resolve_left (by simp [h])
      · exact ho x hx
    simp only [expandArguments]
    split
    · rename_i ht
      split
      · exact ih _ (hpush (by subst ht; rfl))
      · exact H.strNonArg
    · split
      · rename_i ha
        have hs := hsel t List.mem_cons_self ha
        split
        · rename_i e he; rw [he] at hs; exact hs
        · rename_i arg he
          have harg : AllTok P arg := by
            intro x hx
            rcases selectArg_mem he hx with rfl | ⟨a, ha, hxa⟩
            · exact H.comma
            · exact hargs a ha x hxa
          have := placeArg_sat H hrec (nested := nested) (rest := rest) ho harg
          split
          · rename_i e he; rw [he] at this; exact this
          · rename_i o he; rw [he] at this; exact ih _ this
      · rename_i ha
        exact ih _ (hpush (by simpa using ha))

/-- What `collect_args` returns comes from its input. -/
theorem collectArgsGo_mem : ∀ ts stack args cur args' rest,
    collectArgsGo stack args cur ts = some (args', rest) →
    args' ≠ [] ∧ (∀ a ∈ args', ∀ t ∈ a, t ∈ ts ∨ t ∈ cur ∨ ∃ a ∈ args, t ∈ a) ∧
      ∀ t ∈ rest, t ∈ ts := by
  intro ts
  induction ts with
  | nil => intro stack args cur args' rest h; simp [collectArgsGo] at h
  | cons t ts ih =>
    intro stack args cur args' rest h
    have step : ∀ st, collectArgsGo st args (cur ++ [t]) ts = some (args', rest) →
        args' ≠ [] ∧ (∀ a ∈ args', ∀ x ∈ a, x ∈ t :: ts ∨ x ∈ cur ∨ ∃ a ∈ args, x ∈ a) ∧
          ∀ x ∈ rest, x ∈ t :: ts := by
      intro st h
      obtain ⟨h1, h2, h3⟩ := ih _ _ _ _ _ h
      refine ⟨h1, fun a ha x hx => ?_, fun x hx => List.mem_cons_of_mem _ (h3 x hx)⟩
      rcases h2 a ha x hx with h | h | h
      · exact .inl (List.mem_cons_of_mem _ h)
      · rcases List.mem_append.1 h with h | h
        · exact .inr (.inl h)
        · simp only [List.mem_singleton] at h; subst h; exact .inl List.mem_cons_self
      · exact .inr (.inr h)
    unfold collectArgsGo at h
    split at h
    · split at h
      · exact step _ h
      · split at h
        · split at h
          · simp only [Option.some.injEq, Prod.mk.injEq] at h
            obtain ⟨rfl, rfl⟩ := h
            refine ⟨by simp, fun a ha x hx => ?_, fun x hx => List.mem_cons_of_mem _ hx⟩
            rcases List.mem_append.1 ha with ha | ha
            · exact .inr (.inr ⟨a, ha, hx⟩)
            · simp only [List.mem_singleton] at ha; subst ha; exact .inr (.inl hx)
          · split at h
            · exact step _ h
            · simp at h
        · split at h
          · exact step _ h
          · split at h
            · split at h
              · exact step _ h
              · simp at h
            · split at h
              · exact step _ h
              · split at h
                · split at h
                  · exact step _ h
                  · simp at h
                · split at h
                  · obtain ⟨h1, h2, h3⟩ := ih _ _ _ _ _ h
                    refine ⟨h1, fun a ha x hx => ?_, fun x hx => List.mem_cons_of_mem _ (h3 x hx)⟩
                    rcases h2 a ha x hx with h | h | ⟨a', h, hx⟩
                    · exact .inl (List.mem_cons_of_mem _ h)
                    · simp at h
                    · rcases List.mem_append.1 h with h | h
                      · exact .inr (.inr ⟨a', h, hx⟩)
                      · simp only [List.mem_singleton] at h; subst h; exact .inr (.inl hx)
                  · exact step _ h
    · exact step _ h

theorem collectArgs_mem {ts rest : List Token} {args : List (List Token)}
    (h : collectArgs ts = some (args, rest)) :
    args ≠ [] ∧ (∀ a ∈ args, ∀ t ∈ a, t ∈ ts) ∧ ∀ t ∈ rest, t ∈ ts := by
  unfold collectArgs at h
  split at h
  · split at h
    · obtain ⟨h1, h2, h3⟩ := collectArgsGo_mem _ _ _ _ _ _ h
      refine ⟨h1, fun a ha t ht => ?_, fun t ht => List.mem_cons_of_mem _ (h3 t ht)⟩
      rcases h2 a ha t ht with h | h | ⟨_, h, _⟩
      · exact List.mem_cons_of_mem _ h
      · simp at h
      · simp at h
    · simp at h
  · simp at h

theorem fnCallAt_spec {id : Str} {rest : List Token} {d : List Str × List Str}
    {args : List (List Token)} {rest' : List Token}
    (h : fnCallAt ms id rest = some (d, args, rest')) :
    ms.fn.get id = some d ∧ collectArgs rest = some (args, rest') := by
  unfold fnCallAt at h
  split at h
  · split at h
    · rename_i d' hd
      cases hc : collectArgs rest with
      | none => simp [hc] at h
      | some r =>
        simp only [hc, Option.map_some, Option.some.injEq, Prod.mk.injEq] at h
        obtain ⟨rfl, h⟩ := h
        exact ⟨hd, by rw [← h]⟩
    · simp at h
  · simp at h

/-- The facts about a scan result needed below. -/
def Scan.Good (ms : MacroSet) (names : List Str) (P : Token → Prop) (ts : List Token) : Scan → Prop
  | .done out => AllTok P out
  | .fnCall pre id as b args rest => id ∉ names ∧ ms.fn.get id = some (as, b) ∧ args ≠ [] ∧
      AllTok P pre ∧ AllTok P rest ∧ (∀ a ∈ args, AllTok P a) ∧ Token.ident id ∈ ts
  | .varRef pre id b rest => id ∉ names ∧ ms.var.get id = some b ∧ AllTok P pre ∧ AllTok P rest ∧
      Token.ident id ∈ ts

theorem scan_good (hpaint : ∀ id, P (.ident id) → P (.nonRepl (.ident id))) (names : List Str) :
    ∀ ts, AllTok P ts → (scan ms names ts).Good ms names P ts := by
  intro ts
  induction ts with
  | nil => intro _; exact AllTok.nil
  | cons t rest ih =>
    intro h
    have hr : AllTok P rest := fun x hx => h x (List.mem_cons_of_mem _ hx)
    have ih := ih hr
    have push : ∀ t', P t' → ((scan ms names rest).push t').Good ms names P (t :: rest) := by
      intro t' ht'
      have hc : ∀ {l}, AllTok P l → AllTok P (t' :: l) := by
        intro l hl x hx
        rcases List.mem_cons.1 hx with rfl | hx
        · exact ht'
        · exact hl x hx
      cases hs : scan ms names rest with
      | done out => rw [hs] at ih; exact hc ih
      | fnCall pre id as b args rest' =>
        rw [hs] at ih
        obtain ⟨h1, h2, h3, h4, h5, h6, h7⟩ := ih
        exact ⟨h1, h2, h3, hc h4, h5, h6, List.mem_cons_of_mem _ h7⟩
      | varRef pre id b rest' =>
        rw [hs] at ih
        obtain ⟨h1, h2, h3, h4, h5⟩ := ih
        exact ⟨h1, h2, hc h3, h4, List.mem_cons_of_mem _ h5⟩
    have ht := h t List.mem_cons_self
    cases t with
    | ident id =>
      simp only [scan]
      split
      · exact push _ (hpaint _ ht)
      · rename_i hid
        split
        · rename_i d args rest' hcall
          obtain ⟨h1, h2⟩ := fnCallAt_spec hcall
          obtain ⟨h3, h4, h5⟩ := collectArgs_mem h2
          exact ⟨hid, h1, h3, .nil, fun x hx => hr x (h5 x hx),
            fun a ha x hx => hr x (h4 a ha x hx), List.mem_cons_self⟩
        · split
          · rename_i b hb
            exact ⟨hid, hb, .nil, hr, List.mem_cons_self⟩
          · exact push _ ht
    | _ => exact push _ ht

theorem AllTok.append {a b : List Token} (ha : AllTok P a) (hb : AllTok P b) : AllTok P (a ++ b) :=
  fun t ht => (List.mem_append.1 ht).elim (ha t) (hb t)

theorem AllTok.removePlacemarkers {a : List Token} (ha : AllTok P a) :
    AllTok P (removePlacemarkers a) := fun t ht => ha t (List.mem_filter.1 ht).1

theorem tokenizeArgNamesGo_error (E : Env) : ∀ ss v acc e, tokenizeArgNamesGo E v acc ss = .error e →
    e = .err .invalidArgumentName ∨ ∃ n, e = .err (.nonUniqueArgument n) := by
  intro ss
  induction ss with
  | nil => intro v acc e h; simp [tokenizeArgNamesGo] at h
  | cons s ss ih =>
    intro v acc e h
    unfold tokenizeArgNamesGo at h
    repeat' split at h
    all_goals first
      | exact ih _ _ _ h
      | (simp only [Except.error.injEq] at h; subst h; simp)

theorem varBody_noArg {b : List Token} (h : containsVarArgs b = false)
    (hb : ∀ t ∈ b, t.isArg = true ∨ P t) (hm : ∀ i, Token.macroArg i ∉ b) : AllTok P b := by
  intro t ht
  refine (hb t ht).resolve_left fun ha => ?_
  cases t with
  | macroArg i => exact hm i ht
  | varArgs =>
    simp only [containsVarArgs, List.any_eq_false, decide_eq_true_eq] at h
    exact h _ ht rfl
  | _ => simp [Token.isArg] at ha

theorem fromStr_ne_macroArg (E : Env) (s : Str) (i : Nat) : Token.fromStr E s ≠ .macroArg i := by
  unfold Token.fromStr
  intro h
  repeat' split at h
  all_goals simp at h

theorem tokenize_nil_ne_macroArg (E : Env) (b : List Str) (i : Nat) :
    Token.macroArg i ∉ tokenize E [] b := by
  intro h
  obtain ⟨s, _, hs⟩ := List.mem_map.1 h
  simp only [tokenizeOne, List.filter_nil, List.findIdx?_nil] at hs
  exact fromStr_ne_macroArg E s i hs

theorem expandVarMacroBody_sat (H : StepInv E ms P F)
    {rec : List Str → List Token → Res (List Token)}
    (hrec : ∀ S ts, AllTok P ts → (rec S ts).Sat (AllTok P) F) {names : List Str} {name : Str}
    {b : List Str} (hb : ∀ t ∈ tokenize E [] b, t.isArg = true ∨ P t) :
    (expandVarMacroBody E rec names name (tokenize E [] b)).Sat (AllTok P) F := by
  unfold expandVarMacroBody
  split
  · exact H.nonVariadic
  · rename_i hv
    have := expandConcat_sat H
      (varBody_noArg (by simpa using hv) hb (tokenize_nil_ne_macroArg E b))
    split
    · rename_i e he; rw [he] at this; exact this
    · rename_i b' he; rw [he] at this
      exact hrec _ _ (AllTok.removePlacemarkers this)

theorem expandFnMacroBody_sat (H : StepInv E ms P F)
    {rec : List Str → List Token → Res (List Token)}
    (hrec : ∀ S ts, AllTok P ts → (rec S ts).Sat (AllTok P) F) {names : List Str} {name : Str}
    {as b : List Str} {argNames : List Token} (hdef : ms.fn.get name = some (as, b))
    (has : tokenizeArgNames E as = .ok argNames) {args : List (List Token)} (hne : args ≠ [])
    (hargs : ∀ a ∈ args, AllTok P a) :
    (expandFnMacroBody E rec names name argNames (some args) (tokenize E argNames b)).Sat
      (AllTok P) F := by
  unfold expandFnMacroBody
  simp only
  split
  · exact H.nonVariadic
  · rename_i h1
    split
    · rename_i h2
      simp only [Option.map_some, Option.getD_some, Bool.and_eq_true, Bool.not_eq_true'] at h2
      exact H.arity _ _ _ _ _ hdef has h2.1 h2.2
    · rename_i h2
      split
      · exact H.nonUnique _
      · have hvar : ∀ t ∈ tokenize E argNames b, t = .varArgs →
            isVariadic (argNames.filter Token.isNotComment) = true := by
          intro t ht he
          subst he
          simp only [Bool.and_eq_true, Bool.not_eq_true', not_and, Bool.not_eq_true] at h1
          cases hv : isVariadic (argNames.filter Token.isNotComment) with
          | true => rfl
          | false =>
            have := h1 hv
            simp only [containsVarArgs, List.any_eq_false, decide_eq_true_eq] at this
            exact absurd rfl (this _ ht)
        have har : isVariadic (argNames.filter Token.isNotComment) = false →
            arityMismatch (argNames.filter Token.isNotComment) args = false := by
          intro hv
          simpa [hv] using h2
        have := expandArguments_sat H (hrec names) (nested := decide (names.length > 1))
          (names := argNames.filter Token.isNotComment) hargs (body := tokenize E argNames b)
          (fun t ht ha => H.select name as b argNames args t hdef has hne har ht ha (hvar t ht))
          (H.fnBody name as b argNames hdef has) [] .nil
        split
        · rename_i e he; rw [he] at this; exact this
        · rename_i b' he; rw [he] at this
          have := expandConcat_sat H this
          split
          · rename_i e he; rw [he] at this; exact this
          · rename_i b' he; rw [he] at this
            exact hrec _ _ (AllTok.removePlacemarkers this)

theorem expandMacroBody_sat (H : StepInv E ms P F) : ∀ n names ts, AllTok P ts →
    (expandMacroBody E ms n names ts).Sat (AllTok P) F := by
  intro n
  induction n with
  | zero => intro names ts _; exact H.diverge
  | succ n ih =>
    intro names ts h
    have hg := scan_good (ms := ms) H.paint names ts h
    unfold expandMacroBody
    cases hs : scan ms names ts with
    | done out => rw [hs] at hg; exact hg
    | fnCall pre id as b args rest =>
      rw [hs] at hg
      obtain ⟨_, h2, h3, h4, h5, h6, _⟩ := hg
      simp only
      cases hn : tokenizeArgNames E as with
      | error e =>
        rcases tokenizeArgNamesGo_error E _ _ _ _ hn with rfl | ⟨n, rfl⟩
        · exact H.argName
        · exact H.nonUnique n
      | ok argNames =>
        have := expandFnMacroBody_sat H ih (names := names) h2 hn h3 h6
        simp only
        split
        · rename_i e he; rw [he] at this; exact this
        · rename_i ex he; rw [he] at this
          exact ih _ _ ((h4.append this).append h5)
    | varRef pre id b rest =>
      rw [hs] at hg
      obtain ⟨_, h2, h3, h4, _⟩ := hg
      have := expandVarMacroBody_sat H ih (names := names) (name := id) (H.varBody id b h2)
      simp only
      split
      · rename_i e he; rw [he] at this; exact this
      · rename_i ex he; rw [he] at this
        exact ih _ _ ((h3.append this).append h4)

/-- Top-level call of a function-like macro without arguments. -/
theorem expandFnMacroBody_none_sat (H : StepInv E ms P F) {n : Nat} {names : List Str} {name : Str}
    {argNames b : List Token} (hb : isVariadic (argNames.filter Token.isNotComment) = true ∨
      containsVarArgs b = false → AllTok P b) :
    (expandFnMacroBody E (expandMacroBody E ms n) names name argNames none b).Sat (AllTok P) F := by
  unfold expandFnMacroBody
  simp only
  split
  · exact H.nonVariadic
  · rename_i h1
    split
    · rename_i h2; simp at h2
    · split
      · exact H.nonUnique _
      · have := expandConcat_sat H (ts := b) (hb (by
          cases hv : isVariadic (argNames.filter Token.isNotComment) with
          | true => exact .inl rfl
          | false => right; simpa [hv] using h1))
        split
        · rename_i e he; rw [he] at this; exact this
        · rename_i b' he; rw [he] at this
          exact expandMacroBody_sat H _ _ _ (AllTok.removePlacemarkers this)

end CMacro
