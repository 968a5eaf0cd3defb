import Verif.Spec.Reach
import Verif.Proofs.NoPanic
import Verif.Proofs.Stringify
import Verif.Proofs.Store

/-!
# Expansion looks only at the definitions it can reach
-/

namespace CMacro

open Spec (Op Def Table Closed)

variable {E : Env} {T : Str → Prop}

/-! ## Texts -/

/-- A word of `T`, or something that is no part of an identifier. -/
def Known (E : Env) (T : Str → Prop) (s : Str) : Prop :=
  (T s ∧ '\\' ∉ s) ∨ ('"' ∈ s ∨ '\'' ∈ s) ∨ ('\\' ∉ s ∧ ∃ c ∈ s, E.xidContinue c = false)

theorem Known.word (L : E.Lawful) {s : Str} (h : Known E T s) (hc : ∀ c ∈ s, E.xidContinue c = true) : T s := by
  rcases h with h | h | ⟨-, c, hm, h⟩
  · exact h.1
  · have := unquoted_cont L hc
    exact (h.elim this.1 this.2).elim
  · rw [hc c hm] at h; cases h

theorem Known.append (hT : ∀ s t, T s → T t → T (s ++ t)) {s t : Str} (hs : Known E T s) (ht : Known E T t) : Known E T (s ++ t) := by
  have hq : (('"' ∈ s ∨ '\'' ∈ s) ∨ ('"' ∈ t ∨ '\'' ∈ t)) → Known E T (s ++ t) := by
    intro h
    refine .inr (.inl ?_)
    rcases h with (h | h) | (h | h) <;> simp [h]
  have hb : '\\' ∉ s → '\\' ∉ t → '\\' ∉ s ++ t := fun h1 h2 h => (List.mem_append.1 h).elim h1 h2
  rcases hs with ⟨h1, h2⟩ | h | ⟨h2, c, hc, h3⟩
  · rcases ht with ⟨k1, k2⟩ | k | ⟨k2, c, hc, k3⟩
    · exact .inl ⟨hT _ _ h1 k1, hb h2 k2⟩
    · exact hq (.inr k)
    · exact .inr (.inr ⟨hb h2 k2, c, List.mem_append_right _ hc, k3⟩)
  · exact hq (.inl h)
  · rcases ht with ⟨k1, k2⟩ | k | ⟨k2, d, hd, k3⟩
    · exact .inr (.inr ⟨hb h2 k2, c, List.mem_append_left _ hc, h3⟩)
    · exact hq (.inr k)
    · exact .inr (.inr ⟨hb h2 k2, c, List.mem_append_left _ hc, h3⟩)

theorem Known.ident (L : E.Lawful) {s id : Str} (h : Known E T s) (hi : identTryFrom E s = some id) : Known E T id := by
  by_cases hb : '\\' ∈ s
  · rcases h with h | h | h
    · exact absurd hb h.2
    · have := identTryFrom_unquoted L hi
      exact (h.elim this.1 this.2).elim
    · exact absurd hb h.1
  · rw [((identTryFrom_noEscape E hb id).1 hi).1]; exact h

theorem Known.cont (L : E.Lawful) {s id : Str} (h : Known E T s) (hi : identContTryFrom E s = some id) : Known E T id := by
  by_cases hb : '\\' ∈ s
  · rcases h with h | h | h
    · exact absurd hb h.2
    · have := identContTryFrom_unquoted L hi
      exact (h.elim this.1 this.2).elim
    · exact absurd hb h.1
  · rw [identContTryFrom_noEscape E hb id hi]; exact h

/-! ## Tokens -/

/-- The text of the token is known, and it does not paste unless that is allowed. -/
structure Within (E : Env) (T : Str → Prop) (t : Token) : Prop where
  sound : Sound E t
  paste : t = .punct c!"##" → T c!"##"
  text : ∀ s, t.strip.pasteText = some s → Known E T s

theorem within_of {t : Token} (hs : Sound E t) (hp : t ≠ .punct c!"##") (hn : ∀ x, t ≠ .nonRepl x) (ht : ∀ s, t.pasteText = some s → Known E T s) :
    Within E T t := by
  refine ⟨hs, fun h => absurd h hp, fun s h => ht s ?_⟩
  cases t with
  | nonRepl x => exact absurd rfl (hn x)
  | _ => exact h

theorem punct_unquoted : ∀ {s p : Str}, punctTryFrom s = some p → Unquoted s := by
  intro s
  induction s using punctTryFrom.induct with
  | case1 s ih =>
    intro p h
    have := ih (by rw [punctTryFrom] at h; exact h)
    exact ⟨by simp [this.1], by simp [this.2]⟩
  | case2 s ih =>
    intro p h
    have := ih (by rw [punctTryFrom] at h; exact h)
    exact ⟨by simp [this.1], by simp [this.2]⟩
  | case3 s h1 h2 hm =>
    intro p _
    have key : ∀ s ∈ punctTable, '"' ∉ s ∧ '\'' ∉ s := by decide +kernel
    exact key s hm
  | case4 s h1 h2 hm =>
    intro p h
    rw [punctTryFrom, if_neg hm] at h
    · cases h
    · exact h1
    · exact h2

theorem known_word {w : Str} (hw : T w) (he : '\\' ∈ w → '"' ∈ w ∨ '\'' ∈ w) : Known E T w := by
  by_cases hb : '\\' ∈ w
  · exact .inr (.inl (he hb))
  · exact .inl ⟨hw, hb⟩

theorem within_fromStr (L : E.Lawful) {w : Str} (hw : T w) (he : '\\' ∈ w → '"' ∈ w ∨ '\'' ∈ w) : Within E T (Token.fromStr E w) := by
  have hk : Known E T w := known_word hw he
  refine ⟨sound_fromStr w, fun h => ?_, fun s h => ?_⟩
  · have hu : '\\' ∉ w := by
      intro hb
      have : punctTryFrom w = some c!"##" := by
        unfold Token.fromStr at h
        repeat' split at h
        all_goals first | (cases h; assumption) | cases h
      have := punct_unquoted this
      exact (he hb).elim this.1 this.2
    have := fromStr_punct h (fun ⟨r, hr⟩ => hu (by rw [← hr]; simp)) (fun ⟨r, hr⟩ => hu (by rw [← hr]; simp))
    rw [this]
    exact hw
  · have hn := fromStr_ne_nonRepl E w
    revert h
    generalize hf : Token.fromStr E w = t at hn
    have e : t.strip = t := by
      cases t with
      | nonRepl x => exact absurd rfl (hn x)
      | _ => rfl
    rw [e]
    intro h
    unfold Token.fromStr at hf
    split at hf
    · cases hf; cases h
    · split at hf
      · next hi => cases hf; cases h; exact hk.ident L hi
      · split at hf
        · cases hf; cases h; exact hk
        · split at hf
          · next hi => cases hf; cases h; exact hk.cont L hi
          · split at hf
            · cases hf; cases h
            · split at hf
              · cases hf; cases h
              · cases hf; cases h; exact hk

theorem within_tokenize (L : E.Lawful) (hT : ∀ w, T w → '\\' ∈ w → '"' ∈ w ∨ '\'' ∈ w) (names : List Token) {ws : List Str} (hw : ∀ w ∈ ws, T w) :
    AllTok (Within E T) (tokenize E names ws) := by
  intro t ht
  obtain ⟨w, hm, rfl⟩ := List.mem_map.1 ht
  unfold tokenizeOne
  split
  · exact ⟨trivial, by rintro ⟨⟩, by rintro _ ⟨⟩⟩
  · exact within_fromStr L (hw w hm) (hT w (hw w hm))

theorem known_reclassify (L : E.Lawful) {s : Str} (h : Known E T s) : Within E T (reclassify E s) := by
  have hn : ∀ x, reclassify E s ≠ .nonRepl x := by
    intro x hx
    unfold reclassify at hx
    repeat' split at hx
    all_goals cases hx
  refine within_of (sound_reclassify s) ?_ hn ?_
  · intro hx
    unfold reclassify at hx
    repeat' split at hx
    all_goals cases hx
  · intro t ht
    unfold reclassify at ht
    split at ht
    · next hi => cases ht; exact h.ident L hi
    · split at ht
      · cases ht; exact h
      · split at ht
        · next hi => cases ht; exact h.cont L hi
        · cases ht; exact h

theorem within_concat (L : E.Lawful) (hp : T c!"##") (hT : ∀ s t, T s → T t → T (s ++ t)) {a b : Token} (ha : Within E T a) (hb : Within E T b) :
    (a.concat E b).Sat (Within E T) (fun _ => True) := by
  have hs := sound_concat L ha.sound hb.sound
  have hta := ha.text
  have htb := hb.text
  have hsa := strip_ne_nonRepl a
  have hsb := strip_ne_nonRepl b
  unfold Token.concat at hs ⊢
  generalize a.strip = a at *
  generalize b.strip = b at *
  have same : ∀ {t : Token}, (∀ x, t ≠ .nonRepl x) → Sound E t → (∀ s, t.pasteText = some s → Known E T s) → Within E T t := by
    intro t hn h1 h2
    refine ⟨h1, fun _ => hp, ?_⟩
    cases t with
    | nonRepl x => exact absurd rfl (hn x)
    | _ => exact h2
  have hlit : ∀ {s : Str} {l : Lit}, Lit.tryFrom s = some l → Known E T s → Within E T (.lit l s) := by
    intro s l h hk
    exact same (by rintro _ ⟨⟩) (sound_lit h) (by rintro _ ⟨⟩; exact hk)
  unfold concatCore at hs ⊢
  split at hs
  · exact same hsb hs htb
  · exact same hsa hs hta
  · exact same (by rintro _ ⟨⟩) hs (by rintro _ ⟨⟩; exact (hta _ rfl).append hT (htb _ rfl))
  · exact same (by rintro _ ⟨⟩) hs (by rintro _ ⟨⟩; exact (hta _ rfl).append hT (htb _ rfl))
  · split
    · next h => rw [h] at hs; exact ⟨hs, fun _ => hp, by rintro _ ⟨⟩⟩
    · trivial
  · trivial
  · trivial
  · next l lt r =>
    unfold concatPunctLit
    split
    · next hl =>
      have hk : Known E T (l ++ r) := by
        refine Known.append hT (.inr (.inr ?_)) (htb _ rfl)
        rw [hl]
        exact ⟨by decide, '.', by decide, by rw [L.contAscii _ (by decide)]; decide⟩
      cases lt with
      | string x => trivial
      | char x => trivial
      | int x =>
        dsimp only
        split
        · next h => exact hlit h hk
        · trivial
      | float x =>
        dsimp only
        split
        · next h => exact hlit h hk
        · trivial
    · trivial
  · next l lt r =>
    have hk := (hta _ rfl).append hT (htb _ rfl)
    cases lt with
    | string x =>
      cases x <;> simp only [concatIdentLit] <;> (try split) <;> try trivial
      split
      · next h => exact hlit h hk
      · trivial
    | char x =>
      cases x <;> simp only [concatIdentLit] <;> (try split) <;> try trivial
      split
      · next h => exact hlit h hk
      · trivial
    | int x => exact same (by rintro _ ⟨⟩) hs (by rintro _ ⟨⟩; exact hk)
    | float x =>
      simp only [concatIdentLit] at hs ⊢
      split
      · next h =>
        rw [if_pos h] at hs
        split
        · next h => rw [h] at hs; exact same (by rintro _ ⟨⟩) hs (by rintro _ ⟨⟩; exact hk.ident L h)
        · trivial
      · trivial
  · unfold concatGeneral
    split
    · next h1 h2 => exact known_reclassify L ((hta _ h1).append hT (htb _ h2))
    · split <;> trivial

/-! ## Stringified arguments -/

theorem within_stringifyGo (nested : Bool) (hash : Within E T (.punct c!"#")) : ∀ (ts : List Token) (space : Bool) (kept : List Token) (cur : Option Str),
    AllTok (Within E T) ts → AllTok (Within E T) kept → AllTok (Within E T) (stringifyGo nested space kept cur ts).1
  | [], _, _, _, _, hk => hk
  | t :: ts, space, kept, cur, h, hk => by
    have h' : AllTok (Within E T) ts := fun x hx => h x (List.mem_cons_of_mem _ hx)
    rw [stringifyGo]
    split
    · refine within_stringifyGo nested hash ts _ _ _ h' ?_
      intro x hx
      simp only [List.mem_append, List.mem_cons, List.not_mem_nil, or_false] at hx
      rcases hx with hx | rfl | rfl
      · exact hk x hx
      · exact hash
      · exact h _ List.mem_cons_self
    · exact within_stringifyGo nested hash ts _ _ _ h' hk
    · exact within_stringifyGo nested hash ts _ _ _ h' hk

theorem within_stringify (hd : ∀ s, '"' ∈ E.debugFmt s) (nested : Bool) (hash : Within E T (.punct c!"#")) {arg : List Token} (h : AllTok (Within E T) arg) :
    AllTok (Within E T) (stringify E nested arg) := by
  have hk := within_stringifyGo nested hash arg false [] none h AllTok.nil
  have hq : ∀ (l : LitString) (s : Str), '"' ∈ s → Within E T (.lit (.string l) s) := fun l s hs =>
    within_of trivial (by rintro ⟨⟩) (by rintro _ ⟨⟩) (by rintro _ ⟨⟩; exact .inr (.inl (.inl hs)))
  unfold stringify
  generalize stringifyGo nested false [] none arg = r at hk
  obtain ⟨kept, cur⟩ := r
  dsimp only at hk
  have fin : ∀ out : List Token, AllTok (Within E T) out →
      AllTok (Within E T) (if out.isEmpty then [Token.lit (.string (.ordinary [])) c!"\"\""] else out) := by
    intro out ho t ht
    split at ht
    · rw [List.mem_singleton.1 ht]
      exact hq _ _ (by decide)
    · exact ho t ht
  refine fin _ fun t ht => ?_
  rcases List.mem_append.1 ht with ht | ht
  · exact hk t ht
  · cases cur with
    | none => cases ht
    | some s => rw [List.mem_singleton.1 ht]; exact hq _ _ (hd s)

/-! ## The reachable definitions -/

open Classical in
/-- The definitions of names in `T`. -/
noncomputable def MacroSet.only (T : Str → Prop) (ms : MacroSet) : MacroSet :=
  ⟨ms.var.filter fun e => decide (T e.1), ms.fn.filter fun e => decide (T e.1)⟩

open Classical in
theorem get_only {α : Type} (T : Str → Prop) (k : Str) : ∀ (m : Map α), Map.get (m.filter fun e => decide (T e.1)) k = if T k then m.get k else none
  | [] => by simp
  | (a, v) :: m => by
    have ih := get_only T k m
    rw [List.filter_cons]
    by_cases ha : T a
    · simp only [ha, decide_true, if_true]
      rw [Map.get_cons, Map.get_cons, ih]
      by_cases hk : k = a
      · subst hk; simp [ha]
      · simp [hk]
    · simp only [ha, decide_false, Bool.false_eq_true, if_false]
      rw [ih, Map.get_cons]
      by_cases hk : k = a
      · subst hk; simp [ha]
      · simp [hk]

theorem only_var {ms : MacroSet} {id : Str} (h : T id) : (ms.only T).var.get id = ms.var.get id := by
  unfold MacroSet.only
  rw [get_only, if_pos h]

theorem only_fn {ms : MacroSet} {id : Str} (h : T id) : (ms.only T).fn.get id = ms.fn.get id := by
  unfold MacroSet.only
  rw [get_only, if_pos h]

theorem only_var_inv {ms : MacroSet} {id : Str} {b} (h : (ms.only T).var.get id = some b) : T id ∧ ms.var.get id = some b := by
  unfold MacroSet.only at h
  rw [get_only] at h
  split at h
  · next ht => exact ⟨ht, h⟩
  · cases h

theorem only_fn_inv {ms : MacroSet} {id : Str} {b} (h : (ms.only T).fn.get id = some b) : T id ∧ ms.fn.get id = some b := by
  unfold MacroSet.only at h
  rw [get_only] at h
  split at h
  · next ht => exact ⟨ht, h⟩
  · cases h

theorem bodyOf_fn {d : Option Def} {as b : List Str} (h : (match d with | some (.fn p b) => some (p, b) | _ => none) = some (as, b)) :
    d = some (.fn as b) := by
  split at h
  · cases h; rfl
  · cases h

theorem bodyOf_var {d : Option Def} {b : List Str} (h : (match d with | some (.var b) => some b | _ => none) = some b) :
    d = some (.var b) := by
  split at h
  · cases h; rfl
  · cases h

theorem within_body (L : E.Lawful) {h : List Op} (hT : Closed T (Table.run h)) {id : Str} (ht : T id) (names : List Token) {d : Def}
    (hd : Table.run h id = some d) : AllTok (Within E T) (tokenize E names d.words) :=
  within_tokenize L hT.noEscape names (hT.bodies id d ht hd)

theorem stepInv_only (L : E.Lawful) (hd : ∀ s, '"' ∈ E.debugFmt s) {h : List Op} (hT : Closed T (Table.run h)) :
    StepInv E ((MacroSet.run h).only T) (Within E T) (fun _ => True) where
  diverge := trivial
  concatBegin := trivial
  concatEnd := trivial
  nonVariadic := trivial
  arity _ _ _ _ _ _ _ _ _ := trivial
  nonUnique _ := trivial
  strNonArg := trivial
  argName := trivial
  paint id h := ⟨h.sound, by rintro ⟨⟩, h.text⟩
  concat hp a b ha hb _ := within_concat L (hp.paste rfl) (hT.pasted (hp.paste rfl)) ha hb
  placemarker := ⟨trivial, by rintro ⟨⟩, by rintro _ ⟨⟩⟩
  comma := ⟨trivial, fun h => absurd h (by decide), by rintro _ ⟨⟩⟩
  stringify nested arg hash ha := within_stringify hd nested hash ha
  fnBody id as b names hg _ t ht := by
    obtain ⟨h1, h2⟩ := only_fn_inv hg
    rw [(agrees_run h id).2] at h2
    exact .inr (within_body L hT h1 names (bodyOf_fn h2) t ht)
  varBody id b hg t ht := by
    obtain ⟨h1, h2⟩ := only_var_inv hg
    rw [(agrees_run h id).1] at h2
    exact .inr (within_body L hT h1 [] (bodyOf_var h2) t ht)
  select _ _ _ _ _ _ _ _ _ _ _ _ _ := by
    unfold Res.Sat
    split <;> trivial

theorem within_ident (L : E.Lawful) {id : Str} (h : Within E T (.ident id)) : T id :=
  (h.text id rfl).word L (isIdent_cont L h.sound)

/-! ## The same expansion -/

section
variable {ms : MacroSet} {P : Token → Prop}

theorem scan_only (hP : ∀ id, P (.ident id) → T id) (names : List Str) : ∀ ts, AllTok P ts → scan ms names ts = scan (ms.only T) names ts
  | [], _ => rfl
  | t :: rest, h => by
    have ih := scan_only hP names rest fun x hx => h x (List.mem_cons_of_mem _ hx)
    cases t with
    | ident id =>
      have ht := hP id (h _ List.mem_cons_self)
      rw [scan, scan, ih]
      unfold fnCallAt
      rw [only_var ht, only_fn ht]
    | _ => simp only [scan, ih]

theorem selectArg_within (H : StepInv E ms P (fun _ => True)) {names : List Token} {args : List (List Token)} (hargs : ∀ a ∈ args, AllTok P a) {t : Token}
    {arg : List Token} (h : selectArg names args t = .ok arg) : AllTok P arg := by
  unfold selectArg at h
  split at h
  · split at h
    · next ha => cases h; exact hargs _ (List.mem_of_getElem? ha)
    · cases h
  · split at h
    · cases h
    · cases h
      intro x hx
      rcases mem_joinArgs hx with rfl | ⟨a, ha, hx⟩
      · exact H.comma
      · exact hargs a (List.mem_of_mem_drop ha) x hx

theorem expandArguments_only (H : StepInv E ms P (fun _ => True)) {rec rec' : List Token → Res (List Token)} (hr : ∀ ts, AllTok P ts → rec ts = rec' ts)
    (nested : Bool) (names : List Token) (args : List (List Token)) (hargs : ∀ a ∈ args, AllTok P a) : ∀ (ts out : List Token),
    expandArguments E rec nested names args out ts = expandArguments E rec' nested names args out ts
  | [], out => rfl
  | t :: ts, out => by
    have ih := expandArguments_only H hr nested names args hargs ts
    rw [expandArguments, expandArguments]
    by_cases h1 : t = .punct c!"#"
    · rw [if_pos h1, if_pos h1]
      split
      · exact ih _
      · rfl
    · rw [if_neg h1, if_neg h1]
      by_cases h2 : t.isArg = true
      · rw [if_pos h2, if_pos h2]
        cases hs : selectArg names args t with
        | error e => rfl
        | ok arg =>
          dsimp only
          have hp : placeArg E rec nested out arg ts = placeArg E rec' nested out arg ts := by
            unfold placeArg
            rw [hr arg (selectArg_within H hargs hs)]
          rw [hp]
          cases placeArg E rec' nested out arg ts with
          | error e => rfl
          | ok out => exact ih _
      · rw [if_neg h2, if_neg h2]
        exact ih _

theorem expandVar_only (H : StepInv E ms P (fun _ => True)) {rec rec' : List Str → List Token → Res (List Token)}
    (hr : ∀ S ts, AllTok P ts → rec S ts = rec' S ts) (names : List Str) (name : Str) {ts : List Token} (h : AllTok P ts) :
    expandVarMacroBody E rec names name ts = expandVarMacroBody E rec' names name ts := by
  unfold expandVarMacroBody
  split
  · rfl
  · have := expandConcat_sat H h
    cases hc : expandConcat E ts with
    | error e => rfl
    | ok b =>
      rw [hc] at this
      exact hr _ _ (AllTok.removePlacemarkers this)

theorem expandFn_only (H : StepInv E ms P (fun _ => True)) {rec rec' : List Str → List Token → Res (List Token)}
    (hr : ∀ S ts, AllTok P ts → rec S ts = rec' S ts) (hsat : ∀ S ts, AllTok P ts → (rec' S ts).Sat (AllTok P) (fun _ => True))
    (names : List Str) (name : Str) (argNames : List Token) (args : Option (List (List Token))) (hargs : ∀ as ∈ args, ∀ a ∈ as, AllTok P a)
    {ts : List Token} (h : AllTok P ts) :
    expandFnMacroBody E rec names name argNames args ts = expandFnMacroBody E rec' names name argNames args ts := by
  unfold expandFnMacroBody
  dsimp only
  split
  · rfl
  · split
    · rfl
    · split
      · rfl
      · have fin : ∀ b, AllTok P b →
            ((match expandConcat E b with | .error e => .error e | .ok b => rec (setInsert names name) (removePlacemarkers b)) : Res (List Token)) =
            (match expandConcat E b with | .error e => .error e | .ok b => rec' (setInsert names name) (removePlacemarkers b)) := by
          intro b hb
          have := expandConcat_sat H hb
          cases hc : expandConcat E b with
          | error e => rfl
          | ok b =>
            rw [hc] at this
            exact hr _ _ (AllTok.removePlacemarkers this)
        cases args with
        | none => exact fin ts h
        | some args =>
          dsimp only
          have hargs := hargs args rfl
          rw [expandArguments_only H (hr names) (decide (names.length > 1)) (argNames.filter Token.isNotComment) args hargs ts []]
          have := expandArguments_sat H (hsat names) (nested := decide (names.length > 1)) (names := argNames.filter Token.isNotComment) hargs
            (body := ts) (fun t _ _ => by unfold Res.Sat; split <;> trivial) (fun t ht => .inr (h t ht)) [] .nil
          cases hx : expandArguments E (rec' names) (decide (names.length > 1)) (argNames.filter Token.isNotComment) args [] ts with
          | error e => rfl
          | ok b => rw [hx] at this; exact fin b this

end

theorem macroBody_only (L : E.Lawful) (hd : ∀ s, '"' ∈ E.debugFmt s) {h : List Op} (hT : Closed T (Table.run h)) : ∀ (n : Nat) (names : List Str) (ts : List Token),
    AllTok (Within E T) ts → expandMacroBody E (MacroSet.run h) n names ts = expandMacroBody E ((MacroSet.run h).only T) n names ts
  | 0, _, _, _ => rfl
  | n + 1, names, ts, ht => by
    have ih := macroBody_only L hd hT n
    have H := stepInv_only L hd hT
    have hsat := expandMacroBody_sat H n
    rw [expandMacroBody, expandMacroBody, scan_only (fun id => within_ident L) names ts ht]
    have hg := scan_good (ms := (MacroSet.run h).only T) H.paint names ts ht
    cases hs : scan ((MacroSet.run h).only T) names ts with
    | done out => rfl
    | fnCall pre id as b args rest =>
      rw [hs] at hg
      obtain ⟨_, h2, h3, h4, h5, h6, _⟩ := hg
      dsimp only
      cases hn : tokenizeArgNames E as with
      | error e => rfl
      | ok argNames =>
        dsimp only
        have hb : AllTok (Within E T) (tokenize E argNames b) := within_body (d := .fn as b) L hT (only_fn_inv h2).1 argNames
          (by have := (only_fn_inv h2).2; rw [(agrees_run h id).2] at this; exact bodyOf_fn this)
        rw [expandFn_only H ih hsat names id argNames (some args) (by rintro _ ⟨⟩; exact h6) hb]
        have hx := expandFnMacroBody_sat H hsat (names := names) h2 hn h3 h6
        cases he : expandFnMacroBody E (expandMacroBody E ((MacroSet.run h).only T) n) names id argNames (some args) (tokenize E argNames b) with
        | error e => rfl
        | ok ex => rw [he] at hx; exact ih _ _ ((h4.append hx).append h5)
    | varRef pre id b rest =>
      rw [hs] at hg
      obtain ⟨_, h2, h3, h4, _⟩ := hg
      dsimp only
      have hb : AllTok (Within E T) (tokenize E [] b) := within_body (d := .var b) L hT (only_var_inv h2).1 []
        (by have := (only_var_inv h2).2; rw [(agrees_run h id).1] at this; exact bodyOf_var this)
      rw [expandVar_only H ih names id hb]
      have hx := expandVarMacroBody_sat H hsat (names := names) (name := id) (H.varBody id b h2)
      cases he : expandVarMacroBody E (expandMacroBody E ((MacroSet.run h).only T) n) names id (tokenize E [] b) with
      | error e => rfl
      | ok ex => rw [he] at hx; exact ih _ _ ((h3.append hx).append h4)

end CMacro
