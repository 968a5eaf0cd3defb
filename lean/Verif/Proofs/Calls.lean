import Verif.Proofs.Terminate

/-! # One call of a function-like macro; splitting argument lists -/

namespace CMacro
open Spec (Item Table Def Op Call ArgText Balanced Brackets IsBracket NoMacro)

variable {E : Env} {ms : MacroSet}

/-! ## Splitting: the converse of `collectArgs_call` -/

theorem tok_bracket (L : E.Lawful) {s : Str} (h : IsBracket s) : Token.fromStr E s = .punct s := by
  rcases h with rfl | rfl | rfl | rfl | rfl | rfl <;> exact fromStr_bracket L (by simp)

theorem tok_comma (L : E.Lawful) : Token.fromStr E c!"," = .punct c!"," :=
  fromStr_bracket L (by simp)

/-- The text up to the bracket that closes the innermost open one. -/
theorem collectArgsGo_inner (L : E.Lawful) : ∀ (k : Nat) (ts : List Item) (ch : Char)
    (st : List Char) (done : List (List Token)) (cur : List Token) x, ts.length ≤ k →
    OkItems E ts → (∃ c, Brackets [ch] c) →
    collectArgsGo (ch :: st) done cur (ts.map (tokOf E)) = some x →
    ∃ inner c rest, ts = inner ++ .other c :: rest ∧ Balanced inner ∧ Brackets [ch] c ∧
      collectArgsGo st done (cur ++ (inner ++ [Item.other c]).map (tokOf E)) (rest.map (tokOf E)) =
        some x := by
  intro k
  induction k with
  | zero =>
    intro ts ch st done cur x hk _ _ h
    cases ts with
    | nil => simp [collectArgsGo] at h
    | cons i ts => simp at hk
  | succ k ih =>
    intro ts ch st done cur x hk hok hch h
    cases ts with
    | nil => simp [collectArgsGo] at h
    | cons i ts =>
      simp only [List.length_cons] at hk
      have hok' := hok.tail
      have hi := hok _ List.mem_cons_self
      by_cases hb : ∃ s, i = .other s ∧ IsBracket s
      · obtain ⟨s, rfl, hs⟩ := hb
        have htok : tokOf E (.other s) = .punct s := tok_bracket L hs
        rw [List.map_cons, htok] at h
        have hopen : ∀ (o : Char) c, Brackets [o] c → s = [o] →
            collectArgsGo (o :: ch :: st) done (cur ++ [.punct s]) (ts.map (tokOf E)) = some x →
            ∃ inner c rest, Item.other s :: ts = inner ++ .other c :: rest ∧ Balanced inner ∧
              Brackets [ch] c ∧
              collectArgsGo st done (cur ++ (inner ++ [Item.other c]).map (tokOf E))
                (rest.map (tokOf E)) = some x := by
          intro o c hoc hso h
          obtain ⟨inner, c1, rest, rfl, hb1, hc1, h1⟩ :=
            ih ts o (ch :: st) done _ x (by omega) hok' ⟨c, hoc⟩ h
          simp only [List.length_append, List.length_cons] at hk
          have hokr : OkItems E rest := fun t ht => hok' t (by simp [ht])
          obtain ⟨inner2, c2, rest2, rfl, hb2, hc2, h2⟩ :=
            ih rest ch st done _ x (by omega) hokr hch h1
          refine ⟨.other s :: inner ++ .other c1 :: inner2, c2, rest2, by simp,
            .group (by rw [hso]; exact hc1) hb1 hb2, hc2, ?_⟩
          rw [← h2]
          simp [htok]
        have hclose : ∀ (o : Char), Brackets [o] s →
            (∃ st', popParen o (ch :: st) = some st' ∧
              collectArgsGo st' done (cur ++ [.punct s]) (ts.map (tokOf E)) = some x) →
            ∃ inner c rest, Item.other s :: ts = inner ++ .other c :: rest ∧ Balanced inner ∧
              Brackets [ch] c ∧
              collectArgsGo st done (cur ++ (inner ++ [Item.other c]).map (tokOf E))
                (rest.map (tokOf E)) = some x := by
          rintro o hbr ⟨st', hp, h⟩
          simp only [popParen] at hp
          split at hp
          · rename_i hco
            simp only [Option.some.injEq] at hp
            subst hp hco
            exact ⟨[], s, ts, rfl, .nil, hbr, by simpa [htok] using h⟩
          · simp at hp
        rw [collectArgsGo] at h
        rcases hs with rfl | rfl | rfl | rfl | rfl | rfl
        · exact hopen '(' c!")" (.inl ⟨rfl, rfl⟩) rfl (by simpa using h)
        · refine hclose '(' (.inl ⟨rfl, rfl⟩) ?_
          simp only [List.isEmpty_cons, Bool.false_eq_true, if_false] at h
          cases hp : popParen '(' (ch :: st) with
          | none => simp [hp] at h
          | some st' => exact ⟨st', rfl, by simpa [hp] using h⟩
        · exact hopen '[' c!"]" (.inr (.inl ⟨rfl, rfl⟩)) rfl (by simpa using h)
        · refine hclose '[' (.inr (.inl ⟨rfl, rfl⟩)) ?_
          cases hp : popParen '[' (ch :: st) with
          | none => simp [hp] at h
          | some st' => exact ⟨st', rfl, by simpa [hp] using h⟩
        · exact hopen '{' c!"}" (.inr (.inr ⟨rfl, rfl⟩)) rfl (by simpa using h)
        · refine hclose '{' (.inr (.inr ⟨rfl, rfl⟩)) ?_
          cases hp : popParen '{' (ch :: st) with
          | none => simp [hp] at h
          | some st' => exact ⟨st', rfl, by simpa [hp] using h⟩
      · have hbor : Boring (tokOf E i) := boring_tok hi (fun s hs hc => hb ⟨s, hs, hc⟩)
        rw [List.map_cons, collectArgsGo_boring hbor _ _ _ _ (.inr (by simp))] at h
        obtain ⟨inner, c, rest, rfl, hb1, hc1, h1⟩ := ih ts ch st done _ x (by omega) hok' hch h
        refine ⟨i :: inner, c, rest, rfl, ?_, hc1, by rw [← h1]; simp⟩
        cases i with
        | name id p => exact .name hb1
        | other s => exact .other (fun hc => hb ⟨s, rfl, hc⟩) hb1

theorem commaJoin_cons_cons {f : List Item} {fs : List (List Item)} (x : List Item) :
    Spec.commaJoin ((x ++ f) :: fs) = x ++ Spec.commaJoin (f :: fs) := by
  cases fs with
  | nil => rfl
  | cons g gs =>
    rw [Spec.commaJoin.eq_3 (x ++ f) _ (by simp), Spec.commaJoin.eq_3 f _ (by simp)]; simp

theorem collectArgsGo_top (L : E.Lawful) : ∀ (k : Nat) (ts : List Item)
    (done : List (List Token)) (cur : List Token) a r, ts.length ≤ k → OkItems E ts →
    collectArgsGo [] done cur (ts.map (tokOf E)) = some (a, r) →
    ∃ f fs rest, (∀ x ∈ f :: fs, ArgText x) ∧
      ts = Spec.commaJoin (f :: fs) ++ .other c!")" :: rest ∧
      a = done ++ (cur ++ f.map (tokOf E)) :: fs.map (List.map (tokOf E)) ∧
      r = rest.map (tokOf E) := by
  intro k
  induction k with
  | zero =>
    intro ts done cur a r hk _ h
    cases ts with
    | nil => simp [collectArgsGo] at h
    | cons i ts => simp at hk
  | succ k ih =>
    intro ts done cur a r hk hok h
    cases ts with
    | nil => simp [collectArgsGo] at h
    | cons i ts =>
      simp only [List.length_cons] at hk
      have hok' := hok.tail
      have hi := hok _ List.mem_cons_self
      by_cases hcm : i = .other c!","
      · subst hcm
        have htok : tokOf E (.other c!",") = .punct c!"," := tok_comma L
        rw [List.map_cons, htok, collectArgsGo] at h
        simp only [List.isEmpty_nil, and_true, List.cons.injEq, Char.reduceEq, and_self, if_false,
          if_true] at h
        obtain ⟨f, fs, rest, hat, rfl, rfl, rfl⟩ := ih ts _ _ _ _ (by omega) hok' h
        refine ⟨[], f :: fs, rest, ?_, ?_, by simp, rfl⟩
        · intro x hx
          rcases List.mem_cons.1 hx with rfl | hx
          · exact .nil
          · exact hat x hx
        · rw [Spec.commaJoin.eq_3 [] _ (by simp)]; simp
      · by_cases hb : ∃ s, i = .other s ∧ IsBracket s
        · obtain ⟨s, rfl, hs⟩ := hb
          have htok : tokOf E (.other s) = .punct s := tok_bracket L hs
          rw [List.map_cons, htok] at h
          have hopen : ∀ (o : Char) c, Brackets [o] c → s = [o] →
              collectArgsGo [o] done (cur ++ [.punct s]) (ts.map (tokOf E)) = some (a, r) →
              ∃ f fs rest, (∀ x ∈ f :: fs, ArgText x) ∧
                Item.other s :: ts = Spec.commaJoin (f :: fs) ++ .other c!")" :: rest ∧
                a = done ++ (cur ++ f.map (tokOf E)) :: fs.map (List.map (tokOf E)) ∧
                r = rest.map (tokOf E) := by
            intro o c hoc hso h
            obtain ⟨inner, c1, rest1, rfl, hb1, hc1, h1⟩ :=
              collectArgsGo_inner L _ ts o [] done _ _ (Nat.le_refl _) hok' ⟨c, hoc⟩ h
            simp only [List.length_append, List.length_cons] at hk
            have hokr : OkItems E rest1 := fun t ht => hok' t (by simp [ht])
            obtain ⟨f, fs, rest, hat, rfl, rfl, rfl⟩ := ih rest1 _ _ _ _ (by omega) hokr h1
            refine ⟨.other s :: inner ++ .other c1 :: f, fs, rest, ?_, ?_, ?_, rfl⟩
            · intro x hx
              rcases List.mem_cons.1 hx with rfl | hx
              · exact .group (by rw [hso]; exact hc1) hb1 (hat f List.mem_cons_self)
              · exact hat x (List.mem_cons_of_mem _ hx)
            · have := commaJoin_cons_cons (f := f) (fs := fs) (Item.other s :: inner ++ [.other c1])
              simp only [List.append_assoc, List.cons_append, List.nil_append] at this
              simp only [List.cons_append]
              rw [this]
              simp
            · simp [htok]
          rw [collectArgsGo] at h
          rcases hs with rfl | rfl | rfl | rfl | rfl | rfl
          · exact hopen '(' c!")" (.inl ⟨rfl, rfl⟩) rfl (by simpa using h)
          · simp at h
            obtain ⟨rfl, rfl⟩ := h
            exact ⟨[], [], ts, by simpa using .nil, rfl, by simp, rfl⟩
          · exact hopen '[' c!"]" (.inr (.inl ⟨rfl, rfl⟩)) rfl (by simpa using h)
          · simp [popParen] at h
          · exact hopen '{' c!"}" (.inr (.inr ⟨rfl, rfl⟩)) rfl (by simpa using h)
          · simp [popParen] at h
        · have hbor : Boring (tokOf E i) := boring_tok hi (fun s hs hc => hb ⟨s, hs, hc⟩)
          have hne : tokOf E i ≠ .punct c!"," := by
            intro hc
            cases i with
            | name id p => cases p <;> simp [tokIn, tokOf_other] at hc
            | other s => exact hcm (by rw [hi.2.2.1 _ hc])
          rw [List.map_cons, collectArgsGo_boring hbor _ _ _ _ (.inl hne)] at h
          obtain ⟨f, fs, rest, hat, rfl, rfl, rfl⟩ := ih ts _ _ _ _ (by omega) hok' h
          refine ⟨i :: f, fs, rest, ?_, ?_, by simp, rfl⟩
          · intro x hx
            rcases List.mem_cons.1 hx with rfl | hx
            · cases i with
              | name id p => exact .name (hat f List.mem_cons_self)
              | other s =>
                exact .other (fun hc => hb ⟨s, rfl, hc⟩) (fun hc => hcm (by rw [hc]))
                  (hat f List.mem_cons_self)
            · exact hat x (List.mem_cons_of_mem _ hx)
          · have := commaJoin_cons_cons (f := f) (fs := fs) [i]
            simp only [List.cons_append, List.nil_append] at this
            rw [this]; rfl

/-- `collect_args` finds nothing but calls. -/
theorem collectArgs_inv (L : E.Lawful) {ts : List Item} (hok : OkItems E ts)
    {a : List (List Token)} {r : List Token} (h : collectArgs (ts.map (tokOf E)) = some (a, r)) :
    ∃ args rest, Call args ts rest ∧ a = args.map (List.map (tokOf E)) ∧ r = rest.map (tokOf E) := by
  cases ts with
  | nil => simp [collectArgs] at h
  | cons i ts =>
    by_cases hp : ∃ p, tokOf E i = .punct p
    · obtain ⟨p, hp⟩ := hp
      have hi := hok _ List.mem_cons_self
      cases i with
      | name id q => cases q <;> simp [tokIn, tokOf_other] at hp
      | other s =>
        have hps : p = s := hi.2.2.1 p hp
        subst hps
        rw [List.map_cons, hp, collectArgs] at h
        split at h
        · rename_i hpar
          subst hpar
          obtain ⟨f, fs, rest, hat, rfl, rfl, rfl⟩ :=
            collectArgsGo_top L _ ts [] [] a r (Nat.le_refl _) hok.tail h
          exact ⟨f :: fs, rest, ⟨by simp, hat, by simp⟩, by simp, rfl⟩
        · simp at h
    · rw [List.map_cons] at h
      generalize tokOf E i = t at h hp
      cases t with
      | punct p => exact absurd ⟨p, rfl⟩ hp
      | _ => simp [collectArgs] at h

/-! ## The splitting described by `Call` is unique -/

theorem argText_prefix {a a' r r' : List Item} {x x' : Str} (ha : ArgText a) (ha' : ArgText a')
    (hx : x = c!"," ∨ x = c!")") (hx' : x' = c!"," ∨ x' = c!")")
    (h : a ++ .other x :: r = a' ++ .other x' :: r') : a = a' ∧ x = x' ∧ r = r' := by
  have key : ∀ {a a' r r' : List Item} {x x' : Str}, ArgText a → ArgText a' →
      (x = c!"," ∨ x = c!")") → a ++ .other x :: r = a' ++ .other x' :: r' →
      a'.length ≤ a.length := by
    intro a a' r r' x x' ha ha' hx h
    refine Nat.le_of_not_lt fun hlt => ?_
    have hpre : a <+: a' := by
      have h1 : a <+: a ++ .other x :: r := List.prefix_append _ _
      have h2 : a' <+: a ++ .other x :: r := h ▸ List.prefix_append _ _
      exact List.prefix_of_prefix_length_le h1 h2 (by omega)
    obtain ⟨t, rfl⟩ := hpre
    have ht : t ≠ [] := by rintro rfl; simp at hlt
    obtain ⟨y, t', rfl⟩ := List.exists_cons_of_ne_nil ht
    rw [List.append_assoc, List.append_cancel_left_eq, List.cons_append, List.cons.injEq] at h
    obtain ⟨rfl, _⟩ := h
    have hb := argText_brun ha'
    rw [brun_append, argText_brun ha] at hb
    rcases hx with rfl | rfl <;> simp [brun, closer, isCloser] at hb
  have hlen : a.length = a'.length :=
    Nat.le_antisymm (key ha' ha hx' h.symm) (key ha ha' hx h)
  obtain ⟨h1, h2⟩ := List.append_inj h hlen
  simp only [List.cons.injEq, Item.other.injEq] at h2
  exact ⟨h1, h2.1, h2.2⟩

theorem call_unique {args args' : List (List Item)} {ts rest rest' : List Item}
    (h : Call args ts rest) (h' : Call args' ts rest') : args = args' ∧ rest = rest' := by
  obtain ⟨hne, hat, rfl⟩ := h
  obtain ⟨hne', hat', he⟩ := h'
  simp only [List.cons_append, List.cons.injEq, true_and] at he
  induction args generalizing args' with
  | nil => exact absurd rfl hne
  | cons a as ih =>
    cases args' with
    | nil => exact absurd rfl hne'
    | cons a' as' =>
      have ha := hat a List.mem_cons_self
      have ha' := hat' a' List.mem_cons_self
      cases as with
      | nil =>
        cases as' with
        | nil =>
          obtain ⟨h1, _, h2⟩ := argText_prefix ha ha' (.inr rfl) (.inr rfl) he
          exact ⟨by rw [h1], h2⟩
        | cons b' bs' =>
          rw [Spec.commaJoin.eq_3 a' _ (by simp), List.append_assoc] at he
          have := argText_prefix ha ha' (.inr rfl) (.inl rfl) he
          simp at this
      | cons b bs =>
        cases as' with
        | nil =>
          rw [Spec.commaJoin.eq_3 a _ (by simp), List.append_assoc] at he
          have := argText_prefix ha ha' (.inl rfl) (.inr rfl) he
          simp at this
        | cons b' bs' =>
          rw [Spec.commaJoin.eq_3 a _ (by simp), Spec.commaJoin.eq_3 a' _ (by simp),
            List.append_assoc, List.append_assoc] at he
          obtain ⟨h1, _, h2⟩ := argText_prefix ha ha' (.inl rfl) (.inl rfl) he
          have := ih (by simp) (fun x hx => hat x (List.mem_cons_of_mem _ hx))
            (by simp) (fun x hx => hat' x (List.mem_cons_of_mem _ hx)) h2
          exact ⟨by rw [h1, this.1], this.2⟩

/-! ## Calls whose text mentions no other macro -/

theorem noMacro_inert {D : Table} (hD : Agrees ms D) {S : List Str}
    (hS : ∀ x ∈ S, x = [] ∨ D x ≠ none) {ts : List Item} (h : NoMacro D ts) (hok : OkItems E ts) :
    InertTok ms S (ts.map (tokOf E)) := by
  intro id hid
  obtain ⟨i, hi, he⟩ := List.mem_map.1 hid
  cases i with
  | name id' p =>
    cases p with
    | true => simp [tokIn, tokOf_other] at he
    | false =>
      simp only [tokIn, tokOf_other, Token.ident.injEq] at he
      subst he
      have h2 := h _ _ hi
      refine ⟨fun hc => (hS _ hc).elim (hok _ hi) (fun hn => hn h2), ?_, ?_⟩
      · rw [(hD id').2, h2]
      · rw [(hD id').1, h2]
  | other s => exact absurd he ((hok _ hi).1 id)

theorem expandMacroBody_inert {S : List Str} {ts : List Token} (h : InertTok ms S ts) :
    ∀ n, 1 ≤ n → expandMacroBody E ms n S ts = .ok ts := by
  intro n hn
  obtain ⟨n, rfl⟩ : ∃ m, n = m + 1 := ⟨n - 1, by omega⟩
  have := scan_inert h []
  simp only [List.append_nil, scan, pushAll_done] at this
  rw [expandMacroBody, this]

/-- The text after a call of `f` whose arguments, body and surroundings mention no macro. -/
theorem expand_simple_call (L : E.Lawful) {D : Table} (hD : Agrees ms D) {f : Str}
    {params body named : List Str} {tail : List Token}
    (hf : D f = some (.fn params body))
    (htail : (tail = [] ∧ params = named) ∨ (tail = [.punct c!"..."] ∧ params = named ++ [c!"..."]))
    (hnd : named.Nodup) (hnames : ∀ p ∈ named, nameOf E p = some p ∧ p ≠ c!"...")
    (hb : ∀ s ∈ body, Spec.PlainSpelling s)
    (hbv : c!"__VA_ARGS__" ∈ body → tail = [.punct c!"..."])
    (hbn : ∀ s ∈ body, s ∉ named → ∀ id, nameOf E s = some id → D id = none)
    {ts : List Str} (hts : PlainInput ts) {pre call rest : List Item} {args : List (List Item)}
    (hsplit : ts.map (Spec.item (nameOf E)) = pre ++ .name f false :: call)
    (hcall : Call args call rest) (hpre : NoMacro D pre) (hrest : NoMacro D rest)
    (hargs : ∀ a ∈ args, NoMacro D a)
    (har : tail = [] → Spec.ArityOk named args)
    (har' : tail = [.punct c!"..."] → named.length ≤ args.length)
    {va : Option (List Item)}
    (hva : va = if tail = [] then none else some (Spec.commaJoin (args.drop named.length)))
    {toks : List MacroToken}
    (hr : results E (pre ++ Spec.subst (nameOf E) named args va body ++ rest) = some toks) :
    Returns (fun k => ms.expand E k ts) (.ok toks) := by
  have hok := hts.ok (E := E)
  rw [hsplit] at hok
  have hokpre : OkItems E pre := fun t ht => hok t (by simp [ht])
  have hokcall : OkItems E call := fun t ht => hok t (by simp [ht])
  obtain ⟨hokargs, hokrest⟩ := OkIns.call hcall hokcall
  have hfne : f ≠ [] := hok (.name f false) (by simp)
  have htail' : tail = [] ∨ tail = [.punct c!"..."] := htail.imp And.left And.left
  have hS : ∀ x ∈ setInsert [] [], x = [] ∨ D x ≠ none := by simp [setInsert]
  have hS' : ∀ x ∈ setInsert (setInsert [] []) f, x = [] ∨ D x ≠ none := by
    intro x hx
    by_cases hxf : x = f
    · exact .inr (by rw [hxf, hf]; simp)
    · left
      simp only [setInsert, List.not_mem_nil, if_false] at hx
      split at hx <;> simp_all
  have hfS : f ∉ setInsert [] [] := by simp [setInsert, hfne]
  have hfn : ms.fn.get f = some (params, body) := by rw [(hD f).2, hf]
  have hnamesTok : tokenizeArgNames E params = .ok (named.map Token.ident ++ tail) := by
    rcases htail with ⟨rfl, rfl⟩ | ⟨rfl, rfl⟩
    · exact tokenizeArgNames_named hnd (fun p hp => (hnames p hp).1)
    · exact tokenizeArgNames_variadic L hnd (fun p hp => (hnames p hp).1)
  have hvaNM : ∀ v, va = some v → NoMacro D v ∧ OkItems E v := by
    intro v hv
    rw [hva] at hv
    split at hv
    · simp at hv
    · simp only [Option.some.injEq] at hv
      subst hv
      refine ⟨?_, ?_⟩
      · intro id p hm
        rcases mem_commaJoin_inv hm with h | ⟨a, ha, h⟩
        · simp at h
        · exact hargs a (List.mem_of_mem_drop ha) id p h
      · intro t ht
        rcases mem_commaJoin_inv ht with rfl | ⟨a, ha, h⟩
        · have := hokcall
          refine ⟨?_, ?_, ?_, by decide, by decide⟩
          all_goals rw [tokOf_other, tok_comma L]; simp [Token.isArg]
        · exact hokargs a (List.mem_of_mem_drop ha) t h
  have hsubNM : NoMacro D (Spec.subst (nameOf E) named args va body) := by
    have key : ∀ body' : List Str, (∀ s ∈ body', s ∈ body) →
        NoMacro D (Spec.subst (nameOf E) named args va body') := by
      intro body'
      induction body' with
      | nil => intro _ id p h; simp [Spec.subst] at h
      | cons s body' ih =>
        intro hsub id p h
        have hitem : Item.name id p ∈ [Spec.item (nameOf E) s] → s ∉ named → D id = none := by
          intro h hsn
          simp only [List.mem_singleton] at h
          unfold Spec.item at h
          split at h
          · rename_i id' hid
            simp only [Item.name.injEq] at h
            rw [h.1]
            exact hbn s (hsub s List.mem_cons_self) hsn _ hid
          · simp at h
        simp only [Spec.subst, List.mem_append] at h
        rcases h with h | h
        · cases hi : Spec.paramIndex named s with
          | some i =>
            rw [hi] at h
            simp only at h
            rw [List.getD_eq_getElem?_getD] at h
            cases hg : args[i]? with
            | none => simp [hg] at h
            | some a => exact hargs a (List.mem_of_getElem? hg) id p (by simpa [hg] using h)
          | none =>
            rw [hi] at h
            have hsn := paramIndex_none.1 hi
            simp only at h
            cases hv : va with
            | none => rw [hv] at h; exact hitem h hsn
            | some v =>
              rw [hv] at h
              simp only at h
              split at h
              · exact (hvaNM v hv).1 id p h
              · exact hitem h hsn
        · exact ih (fun x hx => hsub x (List.mem_cons_of_mem _ hx)) id p h
    exact key body (fun _ h => h)
  have hsubOk : OkItems E (Spec.subst (nameOf E) named args va body) := by
    refine okItems_subst hokargs (fun v hv => (hvaNM v hv).2) hb ?_
    intro hm _
    rw [hva, if_neg (by rw [hbv hm]; simp)]
    rfl
  have hstep := fnCall_step (E := E) (ms := ms) L (S := setInsert [] []) htail' hfS hfn hnamesTok hnd
    (fun h => (hnames _ h).2 rfl) (args' := args) (va := va)
    (b := Spec.subst (nameOf E) named args va body) hcall hokcall hb hbv har hokargs
    (fun v hv => (hvaNM v hv).2)
    ⟨1, fun n hn s i hi => by
      have hlt : i < args.length := by
        have := (paramIndex_lt hi).1
        rcases htail' with h | h
        · rcases har h with h | ⟨h, _⟩
          · omega
          · rw [h] at this; simp at this
        · have := har' h; omega
      refine ⟨(args[i]).map (tokOf E), by simp [hlt], ?_⟩
      rw [List.getD_eq_getElem?_getD, List.getElem?_eq_getElem hlt, Option.getD_some]
      exact expandMacroBody_inert (noMacro_inert hD hS (hargs _ (List.getElem_mem hlt))
        (hokargs _ (List.getElem_mem hlt))) n hn⟩
    (fun ht => ⟨1, fun n hn => by
      refine ⟨Spec.commaJoin (args.drop named.length),
        (Spec.commaJoin (args.drop named.length)).map (tokOf E), ?_, ?_, ?_⟩
      · rw [hva, if_neg (by rw [ht]; simp)]
      · have := har' ht
        subst ht
        simp only [selectArg, List.length_append, List.length_map, List.length_cons,
          List.length_nil, Nat.add_sub_cancel]
        rw [if_neg (by omega), ← List.map_drop, joinArgs_tok L]
      · have hv := hvaNM _ (by rw [hva, if_neg (by rw [ht]; simp)])
        exact expandMacroBody_inert (noMacro_inert hD hS hv.1 hv.2) n hn⟩)
    ⟨1, fun n hn => expandMacroBody_inert (noMacro_inert hD hS' hsubNM hsubOk) n hn⟩
    (pre.map (tokOf E)) (noMacro_inert hD hS hpre hokpre)
  obtain ⟨N, hN⟩ := hstep
  refine ⟨by simp, max N 1 + 1, ?_⟩
  have h1 := hN (max N 1) (by omega)
  have hfin : InertTok ms (setInsert [] []) (pre.map (tokOf E) ++
      (Spec.subst (nameOf E) named args va body).map (tokOf E) ++ rest.map (tokOf E)) :=
    ((noMacro_inert hD hS hpre hokpre).append (noMacro_inert hD hS hsubNM hsubOk)).append
      (noMacro_inert hD hS hrest hokrest)
  rw [expandMacroBody_inert hfin _ (by omega)] at h1
  simp only [MacroSet.expand, expandVarMacroBody_plain hts, hsplit, List.map_append] at h1 ⊢
  rw [h1]
  have := detokenize_tok hr
  simpa using this

/-- A call with a wrong number of arguments. -/
theorem expand_arity_mismatch (L : E.Lawful) {D : Table} (hD : Agrees ms D) {f : Str}
    {params body : List Str} (hf : D f = some (.fn params body))
    (hnd : params.Nodup) (hnames : ∀ p ∈ params, nameOf E p = some p)
    (hbv : c!"__VA_ARGS__" ∉ body)
    {ts : List Str} (hts : PlainInput ts) {pre call rest : List Item} {args : List (List Item)}
    (hsplit : ts.map (Spec.item (nameOf E)) = pre ++ .name f false :: call)
    (hcall : Call args call rest) (hpre : NoMacro D pre)
    (hlen : args.length ≠ params.length) (hzero : params = [] → args.head? ≠ some []) :
    Returns (fun k => ms.expand E k ts)
      (.error (.err (.fnMacroArgument f params.length args.length))) := by
  have hok := hts.ok (E := E)
  rw [hsplit] at hok
  have hokpre : OkItems E pre := fun t ht => hok t (by simp [ht])
  have hokcall : OkItems E call := fun t ht => hok t (by simp [ht])
  have hfne : f ≠ [] := hok (.name f false) (by simp)
  have hS : ∀ x ∈ setInsert [] [], x = [] ∨ D x ≠ none := by simp [setInsert]
  have hfS : f ∉ setInsert [] [] := by simp [setInsert, hfne]
  have hfn : ms.fn.get f = some (params, body) := by rw [(hD f).2, hf]
  have hnamesTok := tokenizeArgNames_named hnd hnames
  obtain ⟨hhead, hcol⟩ := collectArgs_call L hcall hokcall
  have hscan : scan ms (setInsert [] []) ((pre ++ Item.name f false :: call).map (tokOf E)) =
      .fnCall (pre.map (tokOf E)) f params body (args.map (List.map (tokOf E)))
        (rest.map (tokOf E)) := by
    rw [List.map_append, scan_inert (noMacro_inert hD hS hpre hokpre)]
    have : fnCallAt ms f (call.map (tokOf E)) =
        some ((params, body), args.map (List.map (tokOf E)), rest.map (tokOf E)) := by
      simp only [fnCallAt, hhead, if_true, hfn, hcol, Option.map_some]
    simp only [List.map_cons, tokIn, tokOf_other, scan, if_neg hfS, this]
    rw [pushAll_fnCall]; simp
  have hvar : isVariadic (params.map Token.ident ++ []) = false := by
    simp only [isVariadic, List.append_nil, decide_eq_false_iff_not]
    intro hc
    have := List.mem_of_getLast? hc
    simp at this
  refine ⟨by simp, 1, ?_⟩
  simp only [MacroSet.expand, expandVarMacroBody_plain hts, hsplit, expandMacroBody, hscan, hnamesTok]
  unfold expandFnMacroBody
  simp only [filter_notComment _ _ (.inl rfl), hvar, containsVarArgs_false (.inl rfl) hbv,
    Bool.and_false, Bool.false_eq_true, if_false, Bool.not_false, Bool.true_and, Option.map_some,
    Option.getD_some]
  have : arityMismatch (params.map Token.ident ++ []) (args.map (List.map (tokOf E))) = true := by
    simp only [arityMismatch, List.append_nil, List.length_map, ne_eq, Bool.and_eq_true,
      decide_eq_true_eq, Bool.not_eq_true']
    refine ⟨Ne.symm hlen, ?_⟩
    cases params with
    | cons p ps => rfl
    | nil =>
      have hz := hzero rfl
      cases args with
      | nil => exact absurd rfl hcall.1
      | cons a as =>
        cases a with
        | nil => simp at hz
        | cons x a => rfl
  rw [this]
  simp

/-! ## Checking the hypotheses on concrete text -/

theorem call_of_check {args : List (List Item)} {ts rest : List Item}
    (h : args ≠ [] ∧ (args.all fun a => decide (brun false [] a = some [])) = true ∧
      ts = .other c!"(" :: Spec.commaJoin args ++ .other c!")" :: rest) : Call args ts rest :=
  ⟨h.1, fun a ha => argText_iff.2 (of_decide_eq_true (List.all_eq_true.1 h.2.1 a ha)), h.2.2⟩

/-- Does the item name no macro? -/
def Spec.Item.unused (D : Table) : Item → Bool
  | .name id _ => (D id).isNone
  | .other _ => true

theorem noMacro_of_check {D : Table} {ts : List Item} (h : ts.all (Spec.Item.unused D) = true) :
    NoMacro D ts := by
  intro id p hm
  simpa [Spec.Item.unused] using List.all_eq_true.1 h _ hm

theorem noMacros_of_check {D : Table} {args : List (List Item)}
    (h : (args.all fun ts => ts.all (Spec.Item.unused D)) = true) : ∀ a ∈ args, NoMacro D a :=
  fun a ha => noMacro_of_check (List.all_eq_true.1 h a ha)

theorem body_of_check {D : Table} {params body : List Str}
    (h : (body.all fun s => decide (s ∈ params) || (match nameOf E s with
      | some id => (D id).isNone
      | none => true)) = true) :
    ∀ s ∈ body, s ∉ params → ∀ id, nameOf E s = some id → D id = none := by
  intro s hs hn id hid
  have := List.all_eq_true.1 h s hs
  simpa [hn, hid] using this

theorem step_mem {T : Table} {o : Op} {n : Str} {d : Def} (h : T.step o n = some d) :
    T n = some d ∨ (∃ b, d = .var b ∧ o = .defineVar n b) ∨
      (∃ p b, d = .fn p b ∧ o = .defineFn n p b) := by
  cases o with
  | defineVar m b =>
    simp only [Table.step, Table.set] at h
    split at h
    · rename_i hn
      simp only [Option.some.injEq] at h
      exact .inr (.inl ⟨b, h.symm, by rw [hn]⟩)
    · exact .inl h
  | defineFn m p b =>
    simp only [Table.step, Table.set] at h
    split at h
    · rename_i hn
      simp only [Option.some.injEq] at h
      exact .inr (.inr ⟨p, b, h.symm, by rw [hn]⟩)
    · exact .inl h
  | undefineVar m =>
    simp only [Table.step] at h
    generalize T m = x at h
    rcases x with _ | _ | _
    all_goals first
      | exact .inl h
      | (simp only [Table.set] at h
         split at h
         · simp at h
         · exact .inl h)
  | undefineFn m =>
    simp only [Table.step] at h
    generalize T m = x at h
    rcases x with _ | _ | _
    all_goals first
      | exact .inl h
      | (simp only [Table.set] at h
         split at h
         · simp at h
         · exact .inl h)

/-- A definition in force was made by one of the calls. -/
theorem run_mem {h : List Op} {n : Str} {d : Def} (hd : Table.run h n = some d) :
    (∃ b, d = .var b ∧ .defineVar n b ∈ h) ∨ (∃ p b, d = .fn p b ∧ .defineFn n p b ∈ h) := by
  have key : ∀ (h : List Op) (T : Table), h.foldl Table.step T n = some d → T n = some d ∨
      (∃ b, d = .var b ∧ .defineVar n b ∈ h) ∨ (∃ p b, d = .fn p b ∧ .defineFn n p b ∈ h) := by
    intro h
    induction h with
    | nil => intro T h; exact .inl h
    | cons o h ih =>
      intro T hd
      rcases ih _ hd with h1 | ⟨b, h1, h2⟩ | ⟨p, b, h1, h2⟩
      · rcases step_mem h1 with h1 | ⟨b, h1, h2⟩ | ⟨p, b, h1, h2⟩
        · exact .inl h1
        · exact .inr (.inl ⟨b, h1, by simp [h2]⟩)
        · exact .inr (.inr ⟨p, b, h1, by simp [h2]⟩)
      · exact .inr (.inl ⟨b, h1, by simp [h2]⟩)
      · exact .inr (.inr ⟨p, b, h1, by simp [h2]⟩)
  rcases key h _ hd with h1 | h1
  · simp [Table.empty] at h1
  · exact h1

/-- Is the definition made by the call plain (`Spec.Plain`)? -/
def plainOp (E : Env) : Op → Bool
  | .defineVar _ b => b.all (fun s => decide (Spec.PlainSpelling s)) && decide (c!"__VA_ARGS__" ∉ b)
  | .defineFn _ p b =>
    let named := p.filter (fun s => decide (s ≠ c!"..."))
    b.all (fun s => decide (Spec.PlainSpelling s)) &&
      (decide (c!"__VA_ARGS__" ∉ b) || decide (c!"..." ∈ p)) &&
      decide (p = named ∨ p = named ++ [c!"..."]) && decide named.Nodup &&
      named.all (fun s => decide (nameOf E s = some s))
  | _ => true

theorem plain_of_check {h : List Op} (hc : h.all (plainOp E) = true) :
    Spec.Plain (nameOf E) (Table.run h) where
  var := by
    intro id body hd
    rcases run_mem hd with ⟨b, h1, h2⟩ | ⟨p, b, h1, _⟩
    · simp only [Def.var.injEq] at h1
      subst h1
      have := List.all_eq_true.1 hc _ h2
      simp only [plainOp, Bool.and_eq_true, List.all_eq_true, decide_eq_true_eq] at this
      exact this
    · simp at h1
  fn := by
    intro id params body hd
    rcases run_mem hd with ⟨b, h1, _⟩ | ⟨p, b, h1, h2⟩
    · simp at h1
    · simp only [Def.fn.injEq] at h1
      obtain ⟨rfl, rfl⟩ := h1
      have := List.all_eq_true.1 hc _ h2
      simp only [plainOp, Bool.and_eq_true, List.all_eq_true, decide_eq_true_eq,
        Bool.or_eq_true] at this
      obtain ⟨⟨⟨⟨h3, h4⟩, h5⟩, h6⟩, h7⟩ := this
      refine ⟨h3, fun hv => h4.resolve_left (fun hn => hn hv), _, h5, h6, fun q hq => ⟨h7 q hq, ?_⟩⟩
      simpa using (List.mem_filter.1 hq).2

/-! ## A name that is not followed by an argument list -/

theorem expand_no_call (L : E.Lawful) {D : Table} (hD : Agrees ms D) {f : Str}
    {params body : List Str} (hf : D f = some (.fn params body))
    {ts : List Str} (hts : PlainInput ts) {pre after : List Item}
    (hsplit : ts.map (Spec.item (nameOf E)) = pre ++ .name f false :: after)
    (hcall : ∀ args rest, ¬ Call args after rest)
    (hpre : NoMacro D pre) (hafter : NoMacro D after) {toks : List MacroToken}
    (hr : results E (pre ++ .name f false :: after) = some toks) :
    Returns (fun k => ms.expand E k ts) (.ok toks) := by
  have hok := hts.ok (E := E)
  rw [hsplit] at hok
  have hokpre : OkItems E pre := fun t ht => hok t (by simp [ht])
  have hoka : OkItems E after := fun t ht => hok t (by simp [ht])
  have hfne : f ≠ [] := hok (.name f false) (by simp)
  have hS : ∀ x ∈ setInsert [] [], x = [] ∨ D x ≠ none := by simp [setInsert]
  have hfS : f ∉ setInsert [] [] := by simp [setInsert, hfne]
  have hvar : ms.var.get f = none := by rw [(hD f).1, hf]
  have hfn : fnCallAt ms f (after.map (tokOf E)) = none := by
    unfold fnCallAt
    split
    · cases hg : ms.fn.get f with
      | none => rfl
      | some d =>
        cases hc : collectArgs (after.map (tokOf E)) with
        | none => rfl
        | some r =>
          obtain ⟨args, rest, hcl, _⟩ := collectArgs_inv L hoka (a := r.1) (r := r.2) hc
          exact absurd hcl (hcall args rest)
    · rfl
  have hscan : scan ms (setInsert [] []) ((pre ++ Item.name f false :: after).map (tokOf E)) =
      .done ((pre ++ Item.name f false :: after).map (tokOf E)) := by
    have h2 := scan_inert (noMacro_inert hD hS hafter hoka) []
    simp only [List.append_nil, scan, pushAll_done] at h2
    rw [List.map_append, scan_inert (noMacro_inert hD hS hpre hokpre)]
    simp only [List.map_cons, tokIn, tokOf_other, scan, if_neg hfS, hfn, hvar, h2, Scan.push]
    rw [pushAll_done]
  refine ⟨by simp, 1, ?_⟩
  simp only [MacroSet.expand, expandVarMacroBody_plain hts, hsplit, expandMacroBody, hscan]
  exact detokenize_tok hr

theorem paramIndex_getElem : ∀ {params : List Str} {i : Nat} (hi : i < params.length),
    params.Nodup → Spec.paramIndex params params[i] = some i := by
  intro params
  induction params with
  | nil => intro i hi; simp at hi
  | cons p ps ih =>
    intro i hi hnd
    cases i with
    | zero => simp [Spec.paramIndex]
    | succ i =>
      have hi' : i < ps.length := by simpa using hi
      have hne : p ≠ ps[i] := fun h => (List.nodup_cons.1 hnd).1 (h ▸ List.getElem_mem hi')
      simp [Spec.paramIndex, hne, ih hi' (List.nodup_cons.1 hnd).2]

/-! ## Errors of the three calls -/

theorem detokenize_error (k : Nat) : ∀ (ts : List Token) e, detokenize k ts = .error e →
    (∃ s, e = .err (.invalidToken s)) ∨ e = .panic .detokVarArgs := by
  have one : ∀ (t : Token) e, t.detokenize k = .error e →
      (∃ s, e = .err (.invalidToken s)) ∨ e = .panic .detokVarArgs := by
    intro t e h
    induction t with
    | nonRepl t ih => exact ih h
    | varArgs =>
      simp only [Token.detokenize] at h
      split at h
      · simp only [Except.error.injEq] at h; exact .inr h.symm
      · simp at h
    | plain s => simp only [Token.detokenize, Except.error.injEq] at h; exact .inl ⟨s, h.symm⟩
    | _ => simp [Token.detokenize] at h
  intro ts
  induction ts with
  | nil => intro e h; simp [detokenize] at h
  | cons t ts ih =>
    intro e h
    simp only [detokenize] at h
    cases h1 : t.detokenize k with
    | error e' =>
      rw [h1] at h
      simp only [bind, Except.bind, Except.error.injEq] at h
      exact one t e (by rw [h1, h])
    | ok m =>
      rw [h1] at h
      simp only [bind, Except.bind] at h
      cases h2 : detokenize k ts with
      | error e' =>
        rw [h2] at h
        simp only [Except.error.injEq] at h
        exact ih e (by rw [h2, h])
      | ok ms => rw [h2] at h; simp at h

/-- Whatever the three calls fail with satisfies `F`, if the primitive steps' failures do. -/
theorem calls_fail {F : Fail → Prop} (H : StepInv E ms (fun _ => True) F)
    (hmiss : F (.err .macroNotFound)) (hinv : ∀ s, F (.err (.invalidToken s)))
    (hdet : F (.panic .detokVarArgs)) :
    (∀ k ts e, ms.expand E k ts = .error e → F e) ∧
    (∀ k n e, ms.expandVar E k n = .error e → F e) ∧
    (∀ k n e, ms.expandFn E k n = .error e → F e) := by
  have hd : ∀ k ts e, detokenize k ts = .error e → F e := by
    intro k ts e h
    rcases detokenize_error k ts e h with ⟨s, rfl⟩ | rfl
    · exact hinv s
    · exact hdet
  have hv : ∀ k n b e, expandVarMacroBody E (expandMacroBody E ms k) [] n (tokenize E [] b) =
      .error e → F e := by
    intro k n b e h
    have := expandVarMacroBody_sat H (rec := expandMacroBody E ms k)
      (fun S ts h' => expandMacroBody_sat H k S ts h') (names := [])
      (name := n) (b := b) (fun _ _ => .inr trivial)
    rw [h] at this
    exact this
  refine ⟨?_, ?_, ?_⟩
  · intro k ts e h
    simp only [MacroSet.expand] at h
    split at h
    · rename_i e' he
      simp only [Except.error.injEq] at h
      exact h ▸ hv _ _ _ _ he
    · exact hd _ _ _ h
  · intro k n e h
    simp only [MacroSet.expandVar] at h
    split at h
    · simp only [Except.error.injEq] at h; exact h ▸ hmiss
    · split at h
      · rename_i e' he
        simp only [Except.error.injEq] at h
        exact h ▸ hv _ _ _ _ he
      · exact hd _ _ _ h
  · intro k n e h
    simp only [MacroSet.expandFn] at h
    split at h
    · simp only [Except.error.injEq] at h; exact h ▸ hmiss
    · rename_i as b _
      split at h
      · rename_i e' he
        simp only [Except.error.injEq] at h
        subst h
        rcases tokenizeArgNamesGo_error _ _ _ _ _ he with rfl | ⟨s, rfl⟩
        · exact H.argName
        · exact H.nonUnique s
      · rename_i names _
        split at h
        · rename_i e' he
          have := expandFnMacroBody_none_sat H (n := k)
            (names := []) (name := n) (argNames := names) (b := tokenize E names b)
            (fun _ _ _ => trivial)
          rw [he] at this
          simp only [Except.error.injEq] at h
          exact h ▸ this
        · split at h
          · rename_i e' he
            simp only [Except.error.injEq] at h
            exact h ▸ hd _ _ _ he
          · split at h
            · rename_i e' he
              simp only [Except.error.injEq] at h
              exact h ▸ hd _ _ _ he
            · simp at h

/-! ## Parameter lists -/

/-- Is the spelling an identifier? -/
theorem nameOf_isSome_iff {s : Str} : (nameOf E s).isSome = true ↔
    ∃ id, Token.fromStr E s = .ident id := by
  constructor
  · intro h
    obtain ⟨id, hid⟩ := Option.isSome_iff_exists.1 h
    exact ⟨id, nameOf_fromStr hid⟩
  · rintro ⟨id, h⟩
    obtain ⟨h1, h2⟩ := fromStr_ident.1 h
    simp [nameOf, h1, h2]

theorem tokenizeArgNamesGo_variadic : ∀ (ss : List Str) (acc names : List Token),
    isVariadic (acc.filter Token.isNotComment) = true →
    tokenizeArgNamesGo E true acc ss = .ok names →
    isVariadic (names.filter Token.isNotComment) = true := by
  intro ss
  induction ss with
  | nil => intro acc names ha h; simp only [tokenizeArgNamesGo, Except.ok.injEq] at h; exact h ▸ ha
  | cons s ss ih =>
    intro acc names ha h
    unfold tokenizeArgNamesGo at h
    split at h
    · simp at h
    · split at h <;> simp at h
    · exact ih _ _ (by simpa [List.filter_append, Token.isNotComment] using ha) h
    · simp at h

theorem tokenizeArgNamesGo_count : ∀ (ss : List Str) (acc names : List Token),
    tokenizeArgNamesGo E false acc ss = .ok names →
    isVariadic (names.filter Token.isNotComment) = false →
    (names.filter Token.isNotComment).length =
      (acc.filter Token.isNotComment).length +
        (ss.filter fun s => (nameOf E s).isSome).length := by
  intro ss
  induction ss with
  | nil => intro acc names h _; simp only [tokenizeArgNamesGo, Except.ok.injEq] at h; simp [h]
  | cons s ss ih =>
    intro acc names h hv
    unfold tokenizeArgNamesGo at h
    split at h
    · rename_i id hid
      simp only [Bool.false_eq_true, if_false] at h
      split at h
      · simp at h
      · have := ih _ _ h hv
        rw [List.filter_cons_of_pos (p := fun s => (nameOf E s).isSome)
          (nameOf_isSome_iff.2 ⟨id, hid⟩)]
        simp only [List.filter_append, List.length_append, List.length_cons] at this ⊢
        rw [show ([Token.ident id].filter Token.isNotComment).length = 1 from rfl] at this
        omega
    · split at h
      · simp only [Bool.false_eq_true, if_false] at h
        rename_i hp
        subst hp
        have := tokenizeArgNamesGo_variadic ss _ _
          (by simp [List.filter_append, Token.isNotComment, isVariadic]) h
        rw [hv] at this
        simp at this
      · simp at h
    · rename_i c hc
      have := ih _ _ h hv
      rw [List.filter_cons_of_neg (by
        intro hn
        obtain ⟨id, hid⟩ := nameOf_isSome_iff.1 hn
        rw [hc] at hid
        simp at hid)]
      simp only [List.filter_append, List.length_append] at this
      rw [show ([Token.comment c].filter Token.isNotComment).length = 0 from rfl] at this
      omega
    · simp at h

end CMacro
