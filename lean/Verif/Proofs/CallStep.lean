import Verif.Proofs.Concat

/-! # One call of a function-like macro, whatever its body -/

namespace CMacro
open Spec (Item Call Table)

variable {E : Env} {ms : MacroSet}

/-- What `expand` does to a call that makes up the whole text. -/
theorem expand_call_alone (L : E.Lawful) {D : Table} (hD : Agrees ms D) {f : Str}
    {params body : List Str} (hf : D f = some (.fn params body))
    (hnd : params.Nodup) (hnames : ∀ p ∈ params, nameOf E p = some p)
    (hbv : c!"__VA_ARGS__" ∉ body)
    {ts : List Str} (hts : PlainInput ts) {call : List Item} {args : List (List Item)}
    (hsplit : ts.map (Spec.item (nameOf E)) = .name f false :: call)
    (hcall : Call args call []) (har : Spec.ArityOk params args) (n : Nat) :
    ms.expand E (n + 1) ts =
      (match expandArguments E (expandMacroBody E ms n [[]]) false (params.map Token.ident)
          (args.map (List.map (tokOf E))) [] (tokenize E (params.map Token.ident) body) with
        | .error e => .error e
        | .ok b => match expandConcat E b with
          | .error e => .error e
          | .ok b => match expandMacroBody E ms n [f, []] (removePlacemarkers b) with
            | .error e => .error e
            | .ok ex => match expandMacroBody E ms n [[]] ex with
              | .error e => .error e
              | .ok ts => detokenize 0 ts) := by
  have hok := hts.ok (E := E)
  rw [hsplit] at hok
  have hokcall : OkItems E call := fun t ht => hok t (by simp [ht])
  have hfne : f ≠ [] := hok (.name f false) (by simp)
  have hfS : f ∉ setInsert [] [] := by simp [setInsert, hfne]
  have hfn : ms.fn.get f = some (params, body) := by rw [(hD f).2, hf]
  have hnamesTok := tokenizeArgNames_named hnd hnames
  obtain ⟨hhead, hcol⟩ := collectArgs_call L hcall hokcall
  have hscan : scan ms (setInsert [] []) ((Item.name f false :: call).map (tokOf E)) =
      .fnCall [] f params body (args.map (List.map (tokOf E))) [] := by
    have : fnCallAt ms f (call.map (tokOf E)) =
        some ((params, body), args.map (List.map (tokOf E)), []) := by
      simp only [fnCallAt, hhead, if_true, hfn, hcol, Option.map_some, List.map_nil]
    simp only [List.map_cons, tokIn, tokOf_other, scan, if_neg hfS, this]
  have hvar : isVariadic (params.map Token.ident ++ []) = false := by
    simp only [isVariadic, List.append_nil, decide_eq_false_iff_not]
    intro hc
    have := List.mem_of_getLast? hc
    simp at this
  have hfnb : expandFnMacroBody E (expandMacroBody E ms n) [[]] f (params.map Token.ident ++ [])
      (some (args.map (List.map (tokOf E)))) (tokenize E (params.map Token.ident ++ []) body) =
      (match expandArguments E (expandMacroBody E ms n [[]]) false (params.map Token.ident)
          (args.map (List.map (tokOf E))) [] (tokenize E (params.map Token.ident) body) with
        | .error e => .error e
        | .ok b => match expandConcat E b with
          | .error e => .error e
          | .ok b => expandMacroBody E ms n [f, []] (removePlacemarkers b)) := by
    unfold expandFnMacroBody
    simp only [filter_notComment _ _ (.inl rfl)]
    rw [if_neg, if_neg, filterMap_paramName, firstDuplicate_none]
    · simp only [List.append_nil, List.length_cons, List.length_nil]
      have : setInsert [[]] f = [f, []] := by simp [setInsert, hfne]
      rw [this]
      rfl
    · simpa using hnd
    · intro hc
      simp only [Bool.and_eq_true, Bool.not_eq_true', Option.map_some, Option.getD_some] at hc
      rcases har with h | ⟨h, h'⟩
      · simp [arityMismatch, h] at hc
      · subst h; subst h'; simp [arityMismatch] at hc
    · intro hc
      simp only [Bool.and_eq_true, Bool.not_eq_true'] at hc
      rw [containsVarArgs_false (.inl rfl) hbv] at hc
      simp at hc
  have hS : (setInsert [] [] : List Str) = [[]] := rfl
  rw [hS] at hscan
  simp only [MacroSet.expand, expandVarMacroBody_plain hts, hsplit, expandMacroBody, hscan,
    hnamesTok, hS, hfnb]
  cases expandArguments E (expandMacroBody E ms n [[]]) false (params.map Token.ident)
          (args.map (List.map (tokOf E))) [] (tokenize E (params.map Token.ident) body) with
  | error e => rfl
  | ok b =>
    simp only
    cases expandConcat E b with
    | error e => rfl
    | ok b =>
      simp only
      cases expandMacroBody E ms n [f, []] (removePlacemarkers b) with
      | error e => rfl
      | ok ex =>
        simp only [List.nil_append, List.append_nil]
        cases expandMacroBody E ms n [[]] ex <;> rfl

end CMacro

namespace CMacro
open Spec (Item Call Table)

variable {E : Env} {ms : MacroSet}

theorem detokenize_one {s : Str} {toks : List MacroToken}
    (h : detokenize 0 [Token.fromStr E s] = .ok toks) : toks.map some = [classify E s] := by
  have hp := fromStr_ne_placemarker E s
  have hn := fun t => fromStr_ne_nonRepl E s t
  unfold classify
  generalize Token.fromStr E s = t at *
  cases t with
  | nonRepl t => exact absurd rfl (hn t)
  | placemarker => exact absurd rfl hp
  | varArgs => simp [detokenize, Token.detokenize] at h; cases h
  | plain s => simp [detokenize, Token.detokenize] at h; cases h
  | _ =>
    simp only [detokenize, Token.detokenize] at h ⊢
    cases h
    rfl

/-- A single spelling or nothing, as a macro argument. -/
theorem argText_short {p : List Str} (hl : p.length ≤ 1)
    (hb : ∀ s ∈ p, ¬ Spec.IsBracket s ∧ s ≠ c!",") :
    Spec.ArgText (p.map (Spec.item (nameOf E))) := by
  match p, hl with
  | [], _ => exact .nil
  | [s], _ =>
    have := hb s (by simp)
    simp only [List.map_cons, List.map_nil]
    unfold Spec.item
    split
    · exact .name .nil
    · exact .other this.1 this.2 .nil

/-- The two-operand pasting macro. -/
theorem expand_paste_call (L : E.Lawful) {D : Table} (hD : Agrees ms D) {f x y : Str}
    (hf : D f = some (.fn [x, y] [x, c!"##", y])) (hf' : nameOf E f = some f)
    (hxy : x ≠ y) (hx : nameOf E x = some x) (hy : nameOf E y = some y)
    {p q : List Str} (hp : p.length ≤ 1) (hq : q.length ≤ 1)
    (hts : PlainInput ([f, c!"("] ++ p ++ [c!","] ++ q ++ [c!")"]))
    (hb : ∀ s ∈ p ++ q, ¬ Spec.IsBracket s ∧ s ≠ c!",")
    (hesc : ∀ s ∈ p ++ q, '\\' ∉ s) (hcom : ∀ s ∈ p ++ q, ¬ c!"/*" <+: s)
    (hD' : ∀ s ∈ p ++ q, ∀ id, nameOf E s = some id → D id = none)
    (hj : p = [] ∨ q = [] ∨ (p.flatten ++ q.flatten ≠ c!"__VA_ARGS__" ∧
      p.flatten ++ q.flatten ∉ punctTable ∧ ¬ c!"/*" <+: p.flatten ++ q.flatten))
    (hjD : ∀ id, nameOf E (p.flatten ++ q.flatten) = some id → D id = none)
    {k : Nat} {toks : List MacroToken}
    (h : ms.expand E k ([f, c!"("] ++ p ++ [c!","] ++ q ++ [c!")"]) = .ok toks) :
    toks.map some = if p ++ q = [] then [] else [classify E (p.flatten ++ q.flatten)] := by
  have hfv : f ≠ c!"__VA_ARGS__" := by rintro rfl; simp [nameOf] at hf'
  have hnx : ∀ {z : Str}, nameOf E z = some z → z ≠ c!"##" := by
    rintro z hz rfl
    have := nameOf_fromStr hz
    rw [fromStr_hashhash L] at this
    simp at this
  have hnb : ∀ {z : Str}, Spec.IsBracket z ∨ z = c!"," → nameOf E z = none := by
    intro z hz
    cases hn : nameOf E z with
    | none => rfl
    | some id =>
      have := nameOf_fromStr hn
      rcases hz with hz | rfl
      · rw [tok_bracket L hz] at this; simp at this
      · rw [tok_comma L] at this; simp at this
  have hxx : Token.fromStr E c!"##" = .punct c!"##" := fromStr_hashhash L
  have hitems : ([f, c!"("] ++ p ++ [c!","] ++ q ++ [c!")"]).map (Spec.item (nameOf E)) =
      .name f false :: (.other c!"(" :: Spec.commaJoin [p.map (Spec.item (nameOf E)),
        q.map (Spec.item (nameOf E))] ++ .other c!")" :: []) := by
    have h1 : nameOf E c!"(" = none := hnb (.inl (by simp [Spec.IsBracket]))
    have h2 : nameOf E c!")" = none := hnb (.inl (by simp [Spec.IsBracket]))
    have h3 : nameOf E c!"," = none := hnb (.inr rfl)
    simp [Spec.commaJoin, Spec.item, hf', h1, h2, h3]
  have hcall : Call [p.map (Spec.item (nameOf E)), q.map (Spec.item (nameOf E))]
      (.other c!"(" :: Spec.commaJoin [p.map (Spec.item (nameOf E)),
        q.map (Spec.item (nameOf E))] ++ .other c!")" :: []) [] := by
    refine ⟨by simp, ?_, rfl⟩
    intro a ha
    simp only [List.mem_cons, List.not_mem_nil, or_false] at ha
    rcases ha with rfl | rfl
    · exact argText_short hp (fun s hs => hb s (by simp [hs]))
    · exact argText_short hq (fun s hs => hb s (by simp [hs]))
  obtain ⟨n, rfl⟩ : ∃ n, k = n + 1 := by
    cases k with
    | succ n => exact ⟨n, rfl⟩
    | zero =>
      unfold MacroSet.expand at h
      rw [expandVarMacroBody_plain hts] at h
      simp [expandMacroBody] at h
  rw [expand_call_alone L hD hf (by simp [hxy]) (by simp [hx, hy]) (by
      simp only [List.mem_cons, List.not_mem_nil, or_false, not_or]
      refine ⟨?_, by decide, ?_⟩
      · rintro rfl; simp [nameOf] at hx
      · rintro rfl; simp [nameOf] at hy) hts hitems hcall (.inl rfl) n] at h
  have htk : tokenize E ([x, y].map Token.ident) [x, c!"##", y] =
      [.macroArg 0, .punct c!"##", .macroArg 1] := by
    have := fun s => tokenizeOne_params (E := E) [x, y] s [] (.inl rfl)
    simp only [List.append_nil] at this
    simp only [tokenize, List.map_cons, List.map_nil] at this ⊢
    simp only [this, Spec.paramIndex]
    have h1 : ¬ x = y := hxy
    have h2 : x ≠ c!"##" := hnx hx
    have h3 : y ≠ c!"##" := hnx hy
    simp [h1, h2, h3, hxx]
  rw [htk] at h
  have hS : ∀ x ∈ ([[]] : List Str), x = [] ∨ D x ≠ none := by simp
  have hS' : ∀ x ∈ ([f, []] : List Str), x = [] ∨ D x ≠ none := by
    intro x hx
    simp only [List.mem_cons, List.not_mem_nil, or_false] at hx
    rcases hx with rfl | rfl
    · right; rw [hf]; simp
    · exact .inl rfl
  have hok := hts.ok (E := E)
  rw [hitems] at hok
  have hokp : OkItems E (p.map (Spec.item (nameOf E))) := fun t ht => hok t (by
    simp [Spec.commaJoin, ht])
  have hokq : OkItems E (q.map (Spec.item (nameOf E))) := fun t ht => hok t (by
    simp [Spec.commaJoin, ht])
  have hNM : ∀ l : List Str, (∀ s ∈ l, ∀ id, nameOf E s = some id → D id = none) →
      Spec.NoMacro D (l.map (Spec.item (nameOf E))) := by
    intro l hl id b hm
    obtain ⟨s, hs, he⟩ := List.mem_map.1 hm
    unfold Spec.item at he
    split at he
    · rename_i id' hid
      simp only [Item.name.injEq] at he
      rw [← he.1]; exact hl s hs _ hid
    · simp at he
  have hip := noMacro_inert hD hS (hNM p (fun s hs => hD' s (by simp [hs]))) hokp
  have hiq := noMacro_inert hD hS (hNM q (fun s hs => hD' s (by simp [hs]))) hokq
  cases n with
  | zero => simp [expandArguments, Token.isArg, selectArg, placeArg, expandMacroBody] at h
  | succ n =>
  have hrp := expandMacroBody_inert (E := E) hip (n + 1) (by omega)
  have hrq := expandMacroBody_inert (E := E) hiq (n + 1) (by omega)
  have hargs : expandArguments E (expandMacroBody E ms (n + 1) [[]]) false [.ident x, .ident y]
      [(p.map (Spec.item (nameOf E))).map (tokOf E), (q.map (Spec.item (nameOf E))).map (tokOf E)] []
      [.macroArg 0, .punct c!"##", .macroArg 1] =
      .ok ((if p = [] then [.placemarker] else p.map (Token.fromStr E)) ++ .punct c!"##" ::
        (if q = [] then [.placemarker] else q.map (Token.fromStr E))) := by
    have hm : ∀ l : List Str, (l.map (Spec.item (nameOf E))).map (tokOf E) =
        l.map (Token.fromStr E) := by
      intro l
      rw [List.map_map]
      exact List.map_congr_left (fun s _ => tokOf_item (ps := .none) s)
    rw [hm] at hrp hrq
    rw [hm, hm]
    simp [expandArguments, Token.isArg, selectArg, placeArg, hrp, hrq]
    by_cases hp0 : p = [] <;> by_cases hq0 : q = [] <;> simp [hp0, hq0, expandArguments]
  simp only [List.map_cons, List.map_nil] at h hargs
  rw [hargs] at h
  have hfin : ∀ s : Str, (∀ id, nameOf E s = some id → D id = none) →
      OkItem E (Spec.item (nameOf E) s) → ∀ S, (∀ x ∈ S, x = [] ∨ D x ≠ none) →
      expandMacroBody E ms (n + 1) S [Token.fromStr E s] = .ok [Token.fromStr E s] := by
    intro s hs hok' S hSS
    have := expandMacroBody_inert (E := E) (noMacro_inert hD hSS
      (hNM [s] (by intro s' h'; simp only [List.mem_singleton] at h'; rw [h']; exact hs))
      (by intro t ht; simp only [List.map_cons, List.map_nil, List.mem_singleton] at ht
          rw [ht]; exact hok')) (n + 1) (by omega)
    simpa [tokOf_item] using this
  have hstrip : ∀ s : Str, (Token.fromStr E s).strip = Token.fromStr E s := by
    intro s
    have := fun x => fromStr_ne_nonRepl E s x
    generalize Token.fromStr E s = t at *
    cases t with
    | nonRepl x => exact absurd rfl (this x)
    | _ => rfl
  have hplace : ∀ s : Str, Token.fromStr E s ≠ .placemarker := fromStr_ne_placemarker E
  have hnc : ∀ s ∈ p ++ q, ∀ c, Token.fromStr E s ≠ .comment c := by
    intro s hs c he
    apply hcom s hs
    unfold Token.fromStr at he
    repeat' split at he
    all_goals first | (simp at he; done) | skip
    rename_i hct
    exact commentTryFrom_head hct
  have hmem : ∀ s ∈ p ++ q, s ∈ [f, c!"("] ++ p ++ [c!","] ++ q ++ [c!")"] := by
    intro s hs
    simp only [List.mem_append] at hs ⊢
    rcases hs with h | h <;> simp [h]
  have hnh : ∀ s ∈ p ++ q, Token.fromStr E s ≠ .punct c!"##" := by
    intro s hs he
    have h1 := hts.1 s (hmem s hs)
    have h2 := fromStr_punct he h1.2.2.1 h1.2.2.2
    exact h1.2.1 h2.symm
  have hna : ∀ s ∈ p ++ q, (Token.fromStr E s).isArg = false := by
    intro s hs
    cases hi : (Token.fromStr E s).isArg with
    | false => rfl
    | true => exact absurd (fromStr_isArg.1 hi ▸ hmem s hs) hts.2
  have hone : ∀ a b : Token, a ≠ .punct c!"##" → b ≠ .punct c!"##" → a.isArg = false →
      b.isArg = false → (∀ c, a ≠ .comment c) → (∀ c, b ≠ .comment c) →
      expandConcat E ([a] ++ .punct c!"##" :: [b]) = (match a.concat E b with
        | .ok t => .ok [t]
        | .error e => .error e) := by
    intro a b h1 h2 h3 h4 h5 h6
    have := expandConcat_one (E := E) (pre := []) (post := []) (by simp) (by simp) h1 h2 h3 h4 h5 h6
    simp only [List.nil_append] at this
    rw [List.singleton_append, this]
    cases a.concat E b <;> rfl
  have hrm : ∀ t : Token, t ≠ .placemarker → removePlacemarkers [t] = [t] := by
    intro t ht; simp [removePlacemarkers, ht]
  match p, hp, q, hq with
  | [], _, [], _ =>
    simp only [if_true] at h
    rw [hone _ _ (by simp) (by simp) rfl rfl (by simp) (by simp)] at h
    simp [Token.concat, concatCore, Token.strip, removePlacemarkers, expandMacroBody, scan,
      detokenize] at h
    simp [h]
  | [], _, [s], _ =>
    simp only [if_true, List.cons_ne_nil, if_false, List.map_cons, List.map_nil] at h
    rw [hone _ _ (by simp) (hnh s (by simp)) rfl (hna s (by simp)) (by simp) (hnc s (by simp))] at h
    simp only [Token.concat, concatCore, Token.strip, hstrip, hrm _ (hplace s)] at h
    have hoks : OkItem E (Spec.item (nameOf E) s) := hokq _ (by simp)
    have hDs := hD' s (by simp)
    rw [hfin s hDs hoks _ hS'] at h
    simp only at h
    rw [hfin s hDs hoks _ hS] at h
    simpa using detokenize_one h
  | [s], _, [], _ =>
    simp only [if_true, List.cons_ne_nil, if_false, List.map_cons, List.map_nil] at h
    rw [hone _ _ (hnh s (by simp)) (by simp) (hna s (by simp)) rfl (hnc s (by simp)) (by simp)] at h
    cases hcc : (Token.fromStr E s).concat E .placemarker with
    | error e => rw [hcc] at h; simp at h
    | ok t =>
      rw [hcc] at h
      have := concat_placemarker hcc
      rw [hstrip] at this
      subst this
      simp only [hrm _ (hplace s)] at h
      have hoks : OkItem E (Spec.item (nameOf E) s) := hokp _ (by simp)
      have hDs := hD' s (by simp)
      rw [hfin s hDs hoks _ hS'] at h
      simp only at h
      rw [hfin s hDs hoks _ hS] at h
      simpa using detokenize_one h
  | [s], _, [s'], _ =>
    simp only [List.cons_ne_nil, if_false, List.map_cons, List.map_nil] at h
    rw [hone _ _ (hnh s (by simp)) (hnh s' (by simp)) (hna s (by simp)) (hna s' (by simp))
      (hnc s (by simp)) (hnc s' (by simp))] at h
    cases hcc : (Token.fromStr E s).concat E (Token.fromStr E s') with
    | error e => rw [hcc] at h; simp at h
    | ok t =>
      rw [hcc] at h
      obtain ⟨hv, hpt, hc⟩ := (hj.resolve_left (by simp)).resolve_left (by simp)
      simp only [List.flatten_cons, List.flatten_nil, List.append_nil] at hv hpt hc hjD ⊢
      have := concat_fromStr L (hesc s (by simp)) (hesc s' (by simp)) hv hpt hc hcc
      subst this
      simp only [hrm _ (hplace _)] at h
      have hesc' : '\\' ∉ s ++ s' := by
        simp only [List.mem_append, not_or]
        exact ⟨hesc s (by simp), hesc s' (by simp)⟩
      have hoks : OkItem E (Spec.item (nameOf E) (s ++ s')) := by
        refine okItem_item hv (fun hp => hesc' (hp.subset (by decide)))
          (fun hp => hesc' (hp.subset (by decide))) ?_ ?_
        · intro he; exact hpt (by rw [he]; decide)
        · intro he; exact hpt (by rw [he]; decide)
      rw [hfin _ hjD hoks _ hS'] at h
      simp only at h
      rw [hfin _ hjD hoks _ hS] at h
      simpa using detokenize_one h

end CMacro
