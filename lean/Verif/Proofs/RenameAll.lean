import Verif.Spec.RenameAll
import Verif.Proofs.Lex
import Verif.Proofs.Calls
import Verif.Proofs.NoPanic

/-!
# Renaming identifiers before and after expansion
-/

namespace CMacro

open Spec (Op Def Table RenamesAll)

/-- The returned token with its name renamed. -/
def MacroToken.rename (ρ : Str → Str) : MacroToken → MacroToken
  | .ident id => .ident (ρ id)
  | t => t

/-- The error with the name it mentions renamed. -/
def ExpansionError.rename (ρ : Str → Str) : ExpansionError → ExpansionError
  | .fnMacroArgument n r g => .fnMacroArgument (ρ n) r g
  | .nonUniqueArgument n => .nonUniqueArgument (ρ n)
  | e => e

def Fail.rename (ρ : Str → Str) : Fail → Fail
  | .err e => .err (e.rename ρ)
  | f => f

/-- The result with all names renamed. -/
def Res.rename {α β : Type} (ρ : Str → Str) (f : α → β) : Res α → Res β
  | .ok a => .ok (f a)
  | .error e => .error (e.rename ρ)

/-! ## Tokens -/

def Token.rename (ρ : Str → Str) : Token → Token
  | .ident id => .ident (ρ id)
  | .nonRepl t => .nonRepl (t.rename ρ)
  | t => t

variable {E : Env} {ρ : Str → Str}

theorem renameTok_inj (hi : ∀ a b, ρ a = ρ b → a = b) : ∀ {a b : Token}, a.rename ρ = b.rename ρ → a = b := by
  intro a
  induction a with
  | nonRepl t ih =>
    intro b h
    cases b with
    | nonRepl u => simp only [Token.rename, Token.nonRepl.injEq] at h; rw [ih h]
    | _ => simp [Token.rename] at h
  | ident id =>
    intro b h
    cases b with
    | ident id' => simp only [Token.rename, Token.ident.injEq] at h; rw [hi _ _ h]
    | _ => simp [Token.rename] at h
  | _ =>
    intro b h
    cases b with
    | _ => simp [Token.rename] at h <;> simp [h]

theorem renameTok_eq {t u : Token} (hu : ∀ id, u ≠ .ident id) (hn : ∀ x, u ≠ .nonRepl x) : t.rename ρ = u ↔ t = u := by
  cases t with
  | nonRepl x => simp only [Token.rename]; exact ⟨fun h => absurd h.symm (hn _), fun h => absurd h.symm (hn _)⟩
  | ident id => simp only [Token.rename]; exact ⟨fun h => absurd h.symm (hu _), fun h => absurd h.symm (hu _)⟩
  | _ => exact Iff.rfl

theorem renameTok_punct {t : Token} {p : Str} : t.rename ρ = .punct p ↔ t = .punct p := renameTok_eq (by simp) (by simp)

theorem renameTok_isArg (t : Token) : (t.rename ρ).isArg = t.isArg := by cases t <;> rfl

theorem renameTok_isNotComment (t : Token) : (t.rename ρ).isNotComment = t.isNotComment := by cases t <;> rfl

theorem renameTok_isParam (t : Token) : (t.rename ρ).isParam = t.isParam := by cases t <;> rfl

theorem filter_rename {p : Token → Bool} (hp : ∀ t, p (t.rename ρ) = p t) (ts : List Token) :
    (ts.map (Token.rename ρ)).filter p = (ts.filter p).map (Token.rename ρ) := by
  rw [List.filter_map]
  congr 1
  exact List.filter_congr fun t _ => hp t

theorem fromStr_rename {ws : List Str} (R : RenamesAll (nameOf E) ρ ws) {s : Str} (hs : s ∈ ws) :
    Token.fromStr E (ρ s) = (Token.fromStr E s).rename ρ := by
  have h1 := R.names s hs
  cases hn : nameOf E s with
  | none =>
    rw [R.others s hs hn]
    symm
    unfold Token.fromStr
    unfold nameOf at hn
    split
    · rfl
    · next hv =>
      rw [if_neg hv] at hn
      rw [hn]
      dsimp only
      repeat' split
      all_goals rfl
  | some id =>
    rw [hn] at h1
    unfold nameOf at h1 hn
    split at h1
    · cases h1
    · next hv =>
      split at hn
      · cases hn
      · next hv' =>
        unfold Token.fromStr
        rw [if_neg hv, if_neg hv', h1, hn]
        rfl

theorem tokenizeOne_rename {ws : List Str} (R : RenamesAll (nameOf E) ρ ws) (names : List Token) {s : Str} (hs : s ∈ ws) :
    tokenizeOne E (names.map (Token.rename ρ)) (ρ s) = (tokenizeOne E names s).rename ρ := by
  unfold tokenizeOne
  rw [filter_rename renameTok_isParam, List.findIdx?_map]
  have : (Token.isIdentNamed (ρ s) ∘ Token.rename ρ) = Token.isIdentNamed s := by
    funext t
    cases t with
    | ident id =>
      simp only [Function.comp, Token.rename, Token.isIdentNamed]
      by_cases h : id = s
      · simp [h]
      · have : ρ id ≠ ρ s := fun e => h (R.inj _ _ e)
        simp [h, this]
    | _ => rfl
  rw [this]
  cases (names.filter Token.isParam).findIdx? (Token.isIdentNamed s) with
  | none => exact fromStr_rename R hs
  | some i => rfl

theorem tokenize_rename {ws : List Str} (R : RenamesAll (nameOf E) ρ ws) (names : List Token) {ss : List Str} (hs : ∀ s ∈ ss, s ∈ ws) :
    tokenize E (names.map (Token.rename ρ)) (ss.map ρ) = (tokenize E names ss).map (Token.rename ρ) := by
  unfold tokenize
  rw [List.map_map, List.map_map]
  exact List.map_congr_left fun s h => tokenizeOne_rename R names (hs s h)

theorem argNamesGo_rename {ws : List Str} (R : RenamesAll (nameOf E) ρ ws) : ∀ (ss : List Str), (∀ s ∈ ss, s ∈ ws) → ∀ v (acc : List Token), 
    tokenizeArgNamesGo E v (acc.map (Token.rename ρ)) (ss.map ρ) =
      (tokenizeArgNamesGo E v acc ss).rename ρ (List.map (Token.rename ρ)) := by
  intro ss
  induction ss with
  | nil => intro _ v acc; rfl
  | cons s ss ih =>
    intro hs v acc
    have ih := ih (fun x hx => hs x (List.mem_cons_of_mem _ hx))
    have hf := fromStr_rename R (hs s List.mem_cons_self)
    rw [List.map_cons]
    unfold tokenizeArgNamesGo
    rw [hf]
    have hm : ∀ t : Token, acc.map (Token.rename ρ) ++ [t.rename ρ] = (acc ++ [t]).map (Token.rename ρ) := by simp
    cases ht : Token.fromStr E s with
    | ident id =>
      simp only [Token.rename]
      cases v with
      | true => rfl
      | false =>
        have : Token.ident (ρ id) ∈ acc.map (Token.rename ρ) ↔ Token.ident id ∈ acc := by
          constructor
          · intro h
            obtain ⟨t, ht, e⟩ := List.mem_map.1 h
            have := renameTok_inj R.inj (a := t) (b := .ident id) e
            exact this ▸ ht
          · intro h; exact List.mem_map.2 ⟨_, h, rfl⟩
        simp only [Bool.false_eq_true, if_false, this]
        split
        · rfl
        · have := ih false (acc ++ [.ident id])
          rw [← hm] at this
          exact this
    | punct p =>
      simp only [Token.rename]
      split
      · split
        · simp [Res.rename, Fail.rename, ExpansionError.rename, R.dots]
        · have := ih true (acc ++ [.punct p])
          rw [← hm] at this
          exact this
      · rfl
    | comment c =>
      simp only [Token.rename]
      have := ih v (acc ++ [.comment c])
      rw [← hm] at this
      exact this
    | nonRepl x => exact absurd ht (fromStr_ne_nonRepl E s x)
    | _ => rfl

/-! ## The steps -/

theorem collectArgsGo_rename : ∀ (ts : List Token) stack (args : List (List Token)) (cur : List Token),
    collectArgsGo stack (args.map (List.map (Token.rename ρ))) (cur.map (Token.rename ρ)) (ts.map (Token.rename ρ)) =
      (collectArgsGo stack args cur ts).map fun r => (r.1.map (List.map (Token.rename ρ)), r.2.map (Token.rename ρ)) := by
  intro ts
  induction ts with
  | nil => intros; rfl
  | cons t ts ih =>
    intro stack args cur
    have hm : ∀ t : Token, cur.map (Token.rename ρ) ++ [t.rename ρ] = (cur ++ [t]).map (Token.rename ρ) := by simp
    have ha : args.map (List.map (Token.rename ρ)) ++ [cur.map (Token.rename ρ)] = (args ++ [cur]).map (List.map (Token.rename ρ)) := by simp
    rw [List.map_cons]
    unfold collectArgsGo
    cases t with
    | punct p =>
      have hp := hm (.punct p)
      simp only [Token.rename] at hp ⊢
      rw [hp, ha]
      repeat' split
      all_goals first | exact ih _ _ _ | rfl | exact ih _ _ []
    | _ => exact (congrArg (fun c => collectArgsGo stack (args.map (List.map (Token.rename ρ))) c (ts.map (Token.rename ρ))) (hm _)).trans (ih _ _ _)

theorem collectArgs_rename (ts : List Token) :
    collectArgs (ts.map (Token.rename ρ)) =
      (collectArgs ts).map fun r => (r.1.map (List.map (Token.rename ρ)), r.2.map (Token.rename ρ)) := by
  cases ts with
  | nil => rfl
  | cons t ts =>
    cases t with
    | punct p =>
      simp only [List.map_cons, Token.rename, collectArgs]
      split
      · exact collectArgsGo_rename ts [] [] []
      · rfl
    | _ => rfl

theorem joinArgs_rename (args : List (List Token)) :
    joinArgs (args.map (List.map (Token.rename ρ))) = (joinArgs args).map (Token.rename ρ) := by
  unfold joinArgs
  rw [List.map_flatten]
  congr 1
  induction args with
  | nil => rfl
  | cons a as ih =>
    cases as with
    | nil => rfl
    | cons b bs =>
      simp only [List.map_cons, List.intersperse] at ih ⊢
      rw [ih]
      rfl

theorem selectArg_rename (names : List Token) (args : List (List Token)) {t : Token} (ht : t.isArg = true) :
    selectArg (names.map (Token.rename ρ)) (args.map (List.map (Token.rename ρ))) (t.rename ρ) =
      (selectArg names args t).rename ρ (List.map (Token.rename ρ)) := by
  cases t with
  | macroArg i =>
    simp only [Token.rename, selectArg, List.getElem?_map]
    cases args[i]? <;> rfl
  | varArgs =>
    simp only [Token.rename, selectArg, List.length_map]
    split
    · rfl
    · simp only [Res.rename]
      rw [← List.map_drop, joinArgs_rename]
  | _ => cases ht

/-- No operator of the preprocessor. -/
structure NoOp (t : Token) : Prop where
  str : t ≠ .punct c!"#"
  paste : t ≠ .punct c!"##"

theorem placeArg_noOp {rec : List Token → Res (List Token)} {nested : Bool} {out arg rest : List Token}
    (ho : AllTok NoOp out) (hr : AllTok NoOp rest) :
    placeArg E rec nested out arg rest = match rec arg with
      | .error e => .error e
      | .ok a => .ok (a.reverse ++ out) := by
  have hn : ∀ {l : List Token}, AllTok NoOp l → ¬ l.head? = some (.punct c!"##") := by
    intro l h e
    exact (h _ (List.mem_of_head? e)).paste rfl
  unfold placeArg
  split
  · exact absurd rfl (ho (.punct c!"#") List.mem_cons_self).str
  · cases rec arg with
    | error e => rfl
    | ok a =>
      dsimp only
      rw [if_neg (fun h => h.1.elim (hn ho) (hn hr))]

theorem noOp_rename {l : List Token} (h : AllTok NoOp l) : AllTok NoOp (l.map (Token.rename ρ)) := by
  intro t ht
  obtain ⟨u, hu, rfl⟩ := List.mem_map.1 ht
  exact ⟨fun e => (h u hu).str (renameTok_punct.1 e), fun e => (h u hu).paste (renameTok_punct.1 e)⟩

theorem placeArg_rename {rec rec' : List Token → Res (List Token)} {nested : Bool} {out arg rest : List Token}
    (ho : AllTok NoOp out) (hr : AllTok NoOp rest)
    (hrec : rec' (arg.map (Token.rename ρ)) = (rec arg).rename ρ (List.map (Token.rename ρ))) :
    placeArg E rec' nested (out.map (Token.rename ρ)) (arg.map (Token.rename ρ)) (rest.map (Token.rename ρ)) =
      (placeArg E rec nested out arg rest).rename ρ (List.map (Token.rename ρ)) := by
  rw [placeArg_noOp (noOp_rename ho) (noOp_rename hr), placeArg_noOp ho hr, hrec]
  cases rec arg with
  | error e => rfl
  | ok a => simp [Res.rename]

theorem selectArg_noOp {names : List Token} {args : List (List Token)} (hargs : ∀ a ∈ args, AllTok NoOp a) {t : Token} {arg : List Token}
    (h : selectArg names args t = .ok arg) : AllTok NoOp arg := by
  intro x hx
  unfold selectArg at h
  split at h
  · split at h
    · next a he => cases h; exact hargs _ (List.mem_of_getElem? he) x hx
    · cases h
  · split at h
    · cases h
    · cases h
      rcases mem_joinArgs hx with rfl | ⟨a, ha, hxa⟩
      · exact ⟨by decide, by decide⟩
      · exact hargs a (List.mem_of_mem_drop ha) x hxa

theorem placeArg_stays {rec : List Token → Res (List Token)} {nested : Bool} {out arg rest out' : List Token}
    (ho : AllTok NoOp out) (hr : AllTok NoOp rest) (hs : (rec arg).Sat (AllTok NoOp) (fun _ => True))
    (hp : placeArg E rec nested out arg rest = .ok out') : AllTok NoOp out' := by
  rw [placeArg_noOp ho hr] at hp
  revert hp hs
  cases rec arg with
  | error e => intro _ hp; cases hp
  | ok a =>
    intro this hp
    cases hp
    intro x hx
    rcases List.mem_append.1 hx with hx | hx
    · exact this x (List.mem_reverse.1 hx)
    · exact ho x hx

theorem arguments_noOp {rec : List Token → Res (List Token)} {nested : Bool} (names : List Token) (args : List (List Token))
    (hargs : ∀ a ∈ args, AllTok NoOp a) (hsat : ∀ a, AllTok NoOp a → (rec a).Sat (AllTok NoOp) (fun _ => True)) :
    ∀ (body out : List Token), AllTok NoOp out → AllTok NoOp body →
    (expandArguments E rec nested names args out body).Sat (AllTok NoOp) (fun _ => True) := by
  intro body
  induction body with
  | nil => intro out ho _ t ht; exact ho t (by simpa using ht)
  | cons t rest ih =>
    intro out ho hb
    have hr : AllTok NoOp rest := fun x hx => hb x (List.mem_cons_of_mem _ hx)
    have ht := hb t List.mem_cons_self
    unfold expandArguments
    rw [if_neg ht.str]
    split
    · cases hsel : selectArg names args t with
      | error e => trivial
      | ok arg =>
        dsimp only
        have harg := selectArg_noOp hargs hsel
        cases hp : placeArg E rec nested out arg rest with
        | error e => trivial
        | ok out' => exact ih out' (placeArg_stays ho hr (hsat arg harg) hp) hr
    · exact ih (t :: out) (by
        intro x hx
        rcases List.mem_cons.1 hx with rfl | hx
        · exact ht
        · exact ho x hx) hr

theorem arguments_rename {rec rec' : List Token → Res (List Token)} {nested : Bool} (names : List Token) (args : List (List Token))
    (hargs : ∀ a ∈ args, AllTok NoOp a)
    (hrec : ∀ a, AllTok NoOp a → rec' (a.map (Token.rename ρ)) = (rec a).rename ρ (List.map (Token.rename ρ)))
    (hsat : ∀ a, AllTok NoOp a → (rec a).Sat (AllTok NoOp) (fun _ => True)) :
    ∀ (body out : List Token), AllTok NoOp out → AllTok NoOp body →
    expandArguments E rec' nested (names.map (Token.rename ρ)) (args.map (List.map (Token.rename ρ))) (out.map (Token.rename ρ)) (body.map (Token.rename ρ)) =
      (expandArguments E rec nested names args out body).rename ρ (List.map (Token.rename ρ)) := by
  intro body
  induction body with
  | nil => intro out _ _; simp [expandArguments, Res.rename]
  | cons t rest ih =>
    intro out ho hb
    have hr : AllTok NoOp rest := fun x hx => hb x (List.mem_cons_of_mem _ hx)
    have ht := hb t List.mem_cons_self
    rw [List.map_cons]
    unfold expandArguments
    rw [if_neg (fun e => ht.str (renameTok_punct.1 e)), if_neg ht.str, renameTok_isArg]
    split
    · next hg =>
      rw [selectArg_rename names args hg]
      cases hsel : selectArg names args t with
      | error e => rfl
      | ok arg =>
        have harg := selectArg_noOp hargs hsel
        simp only [Res.rename]
        rw [placeArg_rename ho hr (hrec arg harg)]
        cases hp : placeArg E rec nested out arg rest with
        | error e => rfl
        | ok out' =>
          exact ih out' (placeArg_stays ho hr (hsat arg harg) hp) hr
    · exact ih (t :: out) (by
        intro x hx
        rcases List.mem_cons.1 hx with rfl | hx
        · exact ht
        · exact ho x hx) hr

theorem removePlacemarkers_rename (ts : List Token) :
    removePlacemarkers (ts.map (Token.rename ρ)) = (removePlacemarkers ts).map (Token.rename ρ) := by
  unfold removePlacemarkers
  refine filter_rename (fun t => ?_) ts
  have : t.rename ρ = .placemarker ↔ t = .placemarker := renameTok_eq (by simp) (by simp)
  simp [this]

theorem containsVarArgs_rename (ts : List Token) : containsVarArgs (ts.map (Token.rename ρ)) = containsVarArgs ts := by
  unfold containsVarArgs
  rw [List.any_map]
  congr 1
  funext t
  have : t.rename ρ = .varArgs ↔ t = .varArgs := renameTok_eq (by simp) (by simp)
  simp [this]

theorem setInsert_rename (hi : ∀ a b, ρ a = ρ b → a = b) (names : List Str) (n : Str) :
    setInsert (names.map ρ) (ρ n) = (setInsert names n).map ρ := by
  unfold setInsert
  have : ρ n ∈ names.map ρ ↔ n ∈ names := by
    constructor
    · intro h
      obtain ⟨x, hx, e⟩ := List.mem_map.1 h
      exact hi _ _ e ▸ hx
    · exact fun h => List.mem_map.2 ⟨n, h, rfl⟩
  simp only [this]
  split <;> rfl

theorem isVariadic_rename (names : List Token) : isVariadic (names.map (Token.rename ρ)) = isVariadic names := by
  unfold isVariadic
  rw [List.getLast?_map]
  cases names.getLast? with
  | none => rfl
  | some t =>
    have : t.rename ρ = .punct c!"..." ↔ t = .punct c!"..." := renameTok_punct
    simp [this]

theorem arityMismatch_rename (names : List Token) (args : List (List Token)) :
    arityMismatch (names.map (Token.rename ρ)) (args.map (List.map (Token.rename ρ))) = arityMismatch names args := by
  unfold arityMismatch
  cases args with
  | nil => simp
  | cons a as => simp

theorem firstDuplicate_rename (hi : ∀ a b, ρ a = ρ b → a = b) : ∀ l : List Str, firstDuplicate (l.map ρ) = (firstDuplicate l).map ρ := by
  intro l
  induction l with
  | nil => rfl
  | cons n ns ih =>
    simp only [List.map_cons, firstDuplicate]
    have : ρ n ∈ ns.map ρ ↔ n ∈ ns := by
      constructor
      · intro h
        obtain ⟨x, hx, e⟩ := List.mem_map.1 h
        exact hi _ _ e ▸ hx
      · exact fun h => List.mem_map.2 ⟨n, h, rfl⟩
    simp only [this, ih]
    split <;> rfl

theorem argNames_rename {ws : List Str} (R : RenamesAll (nameOf E) ρ ws) {ss : List Str} (hs : ∀ s ∈ ss, s ∈ ws) :
    tokenizeArgNames E (ss.map ρ) = (tokenizeArgNames E ss).rename ρ (List.map (Token.rename ρ)) :=
  argNamesGo_rename R ss hs false []

/-- What can be in a parameter list. -/
def ArgName (t : Token) : Prop := ∀ p, t = .punct p → p = c!"..."

theorem argNamesGo_argName : ∀ (ss : List Str) v (acc names : List Token), AllTok ArgName acc →
    tokenizeArgNamesGo E v acc ss = .ok names → AllTok ArgName names := by
  intro ss
  induction ss with
  | nil => intro v acc names h e; cases e; exact h
  | cons s ss ih =>
    intro v acc names h e
    unfold tokenizeArgNamesGo at e
    have app : ∀ t, ArgName t → AllTok ArgName (acc ++ [t]) := by
      intro t ht x hx
      rcases List.mem_append.1 hx with hx | hx
      · exact h x hx
      · rw [List.mem_singleton.1 hx]; exact ht
    split at e
    · split at e
      · cases e
      · split at e
        · cases e
        · exact ih _ _ _ (app _ (by rintro _ ⟨⟩)) e
    · split at e
      · next hp =>
        split at e
        · cases e
        · exact ih _ _ _ (app _ (by rintro _ ⟨⟩; exact hp)) e
      · cases e
    · exact ih _ _ _ (app _ (by rintro _ ⟨⟩)) e
    · cases e

theorem paramName_rename {ws : List Str} (R : RenamesAll (nameOf E) ρ ws) : ∀ {names : List Token}, AllTok ArgName names →
    (names.map (Token.rename ρ)).filterMap Token.paramName = (names.filterMap Token.paramName).map ρ := by
  intro names
  induction names with
  | nil => intro _; rfl
  | cons t ts ih =>
    intro h
    have ih := ih (fun x hx => h x (List.mem_cons_of_mem _ hx))
    have ht := h t List.mem_cons_self
    rw [List.map_cons, List.filterMap_cons, List.filterMap_cons]
    cases t with
    | punct p => rw [ht p rfl]; simp [Token.rename, Token.paramName, ih, R.dots]
    | ident id => simp [Token.rename, Token.paramName, ih]
    | _ => exact ih

theorem varBody_rename (hi : ∀ a b, ρ a = ρ b → a = b) {rec rec' : List Str → List Token → Res (List Token)}
    (hrec : ∀ S a, AllTok NoOp a → rec' (S.map ρ) (a.map (Token.rename ρ)) = (rec S a).rename ρ (List.map (Token.rename ρ)))
    (names : List Str) (name : Str) {body : List Token} (hb : AllTok NoOp body) :
    expandVarMacroBody E rec' (names.map ρ) (ρ name) (body.map (Token.rename ρ)) =
      (expandVarMacroBody E rec names name body).rename ρ (List.map (Token.rename ρ)) := by
  unfold expandVarMacroBody
  rw [containsVarArgs_rename, expandConcat_noop (fun t h => (noOp_rename hb t h).paste), expandConcat_noop (fun t h => (hb t h).paste)]
  split
  · rfl
  · dsimp only
    rw [setInsert_rename hi, removePlacemarkers_rename]
    exact hrec _ _ (fun t ht => hb t (List.mem_filter.1 ht).1)

theorem fnBody_rename {ws : List Str} (R : RenamesAll (nameOf E) ρ ws) {rec rec' : List Str → List Token → Res (List Token)}
    (hrec : ∀ S a, AllTok NoOp a → rec' (S.map ρ) (a.map (Token.rename ρ)) = (rec S a).rename ρ (List.map (Token.rename ρ)))
    (hsat : ∀ S a, AllTok NoOp a → (rec S a).Sat (AllTok NoOp) (fun _ => True))
    (names : List Str) (name : Str) {argNames : List Token} (hn : AllTok ArgName argNames) {args : Option (List (List Token))}
    (hargs : ∀ as, args = some as → ∀ a ∈ as, AllTok NoOp a) {body : List Token} (hb : AllTok NoOp body) :
    expandFnMacroBody E rec' (names.map ρ) (ρ name) (argNames.map (Token.rename ρ)) (args.map (List.map (List.map (Token.rename ρ))))
        (body.map (Token.rename ρ)) =
      (expandFnMacroBody E rec names name argNames args body).rename ρ (List.map (Token.rename ρ)) := by
  unfold expandFnMacroBody
  dsimp only
  rw [filter_rename renameTok_isNotComment]
  have hn' : AllTok ArgName (argNames.filter Token.isNotComment) := fun t ht => hn t (List.mem_filter.1 ht).1
  generalize argNames.filter Token.isNotComment = an at hn' ⊢
  rw [isVariadic_rename, containsVarArgs_rename, paramName_rename R hn', firstDuplicate_rename R.inj]
  split
  · rfl
  · have ha : ((args.map (List.map (List.map (Token.rename ρ)))).map (arityMismatch (an.map (Token.rename ρ)))).getD false =
        (args.map (arityMismatch an)).getD false := by
      cases args with
      | none => rfl
      | some as => exact arityMismatch_rename an as
    rw [ha]
    split
    · cases args <;> simp [Res.rename, Fail.rename, ExpansionError.rename]
    · cases hd : firstDuplicate (an.filterMap Token.paramName) with
      | some d => rfl
      | none =>
        simp only [Option.map_none]
        have key : ∀ b : List Token, AllTok NoOp b →
            (match expandConcat E (b.map (Token.rename ρ)) with
              | .error e => .error e
              | .ok body => rec' (setInsert (names.map ρ) (ρ name)) (removePlacemarkers body)) =
            (match expandConcat E b with
              | .error e => .error e
              | .ok body => rec (setInsert names name) (removePlacemarkers body) : Res (List Token)).rename ρ (List.map (Token.rename ρ)) := by
          intro b hb
          rw [expandConcat_noop (fun t h => (noOp_rename hb t h).paste), expandConcat_noop (fun t h => (hb t h).paste)]
          dsimp only
          rw [setInsert_rename R.inj, removePlacemarkers_rename]
          exact hrec _ _ (fun t ht => hb t (List.mem_filter.1 ht).1)
        cases args with
        | none => exact key body hb
        | some as =>
          simp only [Option.map_some, List.length_map]
          have h1 := arguments_rename (E := E) (nested := decide (names.length > 1)) an as (hargs as rfl) (hrec names) (hsat names) body [] (by rintro _ ⟨⟩) hb
          rw [show ([] : List Token).map (Token.rename ρ) = [] from rfl] at h1
          rw [h1]
          have h2 := arguments_noOp (E := E) (nested := decide (names.length > 1)) an as (hargs as rfl) (hsat names) body [] (by rintro _ ⟨⟩) hb
          revert h2
          cases expandArguments E (rec names) (decide (names.length > 1)) an as [] body with
          | error e => intro _; rfl
          | ok b => exact fun h2 => key b h2

/-! ## The table -/

theorem table_rename (hi : ∀ a b, ρ a = ρ b → a = b) : ∀ (h : List Op) (t t' : Table), (∀ n, t' (ρ n) = (t n).map (Def.rename ρ)) →
    ∀ n, (h.map (Op.rename ρ)).foldl Table.step t' (ρ n) = (h.foldl Table.step t n).map (Def.rename ρ) := by
  intro h
  induction h with
  | nil => exact fun _ _ ht => ht
  | cons o h ih =>
    intro t t' ht
    refine ih _ _ fun n => ?_
    have hne : ∀ {m : Str}, n ≠ m → ρ n ≠ ρ m := fun h e => h (hi _ _ e)
    have hset : ∀ (m : Str) (d : Option Def), t'.set (ρ m) (d.map (Def.rename ρ)) (ρ n) = (t.set m d n).map (Def.rename ρ) := by
      intro m d
      unfold Table.set
      by_cases e : n = m
      · rw [if_pos e, if_pos (by rw [e])]
      · rw [if_neg e, if_neg (hne e)]; exact ht n
    cases o with
    | defineVar m b => exact hset m (some (.var b))
    | defineFn m p b => exact hset m (some (.fn p b))
    | undefineVar m =>
      simp only [Op.rename, Table.step, ht m]
      cases t m with
      | none => exact ht n
      | some d =>
        cases d with
        | var b => exact hset m none
        | fn p b => exact ht n
    | undefineFn m =>
      simp only [Op.rename, Table.step, ht m]
      cases t m with
      | none => exact ht n
      | some d =>
        cases d with
        | fn p b => exact hset m none
        | var b => exact ht n

theorem run_rename (hi : ∀ a b, ρ a = ρ b → a = b) (h : List Op) (n : Str) :
    Table.run (h.map (Op.rename ρ)) (ρ n) = (Table.run h n).map (Def.rename ρ) :=
  table_rename hi h Table.empty Table.empty (fun _ => rfl) n

theorem get_rename (hi : ∀ a b, ρ a = ρ b → a = b) (h : List Op) (n : Str) :
    (MacroSet.run (h.map (Op.rename ρ))).var.get (ρ n) = ((MacroSet.run h).var.get n).map (List.map ρ) ∧
    (MacroSet.run (h.map (Op.rename ρ))).fn.get (ρ n) = ((MacroSet.run h).fn.get n).map fun d => (d.1.map ρ, d.2.map ρ) := by
  rw [(agrees_run _ _).1, (agrees_run _ _).2, (agrees_run h n).1, (agrees_run h n).2, run_rename hi]
  cases Table.run h n with
  | none => exact ⟨rfl, rfl⟩
  | some d => cases d <;> exact ⟨rfl, rfl⟩

/-! ## Expansion -/

def Scan.rename (ρ : Str → Str) : Scan → Scan
  | .done out => .done (out.map (Token.rename ρ))
  | .fnCall pre id a b args rest =>
    .fnCall (pre.map (Token.rename ρ)) (ρ id) (a.map ρ) (b.map ρ) (args.map (List.map (Token.rename ρ))) (rest.map (Token.rename ρ))
  | .varRef pre id b rest => .varRef (pre.map (Token.rename ρ)) (ρ id) (b.map ρ) (rest.map (Token.rename ρ))

theorem push_rename (t : Token) (s : Scan) : (s.rename ρ).push (t.rename ρ) = (s.push t).rename ρ := by
  cases s <;> rfl

theorem fnCallAt_rename (hi : ∀ a b, ρ a = ρ b → a = b) (h : List Op) (id : Str) (rest : List Token) :
    fnCallAt (MacroSet.run (h.map (Op.rename ρ))) (ρ id) (rest.map (Token.rename ρ)) =
      (fnCallAt (MacroSet.run h) id rest).map fun r =>
        ((r.1.1.map ρ, r.1.2.map ρ), r.2.1.map (List.map (Token.rename ρ)), r.2.2.map (Token.rename ρ)) := by
  unfold fnCallAt
  have hh : (rest.map (Token.rename ρ)).head? = some (.punct c!"(") ↔ rest.head? = some (.punct c!"(") := by
    cases rest with
    | nil => simp
    | cons t ts =>
      simp only [List.map_cons, List.head?_cons, Option.some.injEq]
      exact renameTok_punct
  simp only [hh, (get_rename hi h id).2, collectArgs_rename]
  split
  · cases (MacroSet.run h).fn.get id with
    | none => rfl
    | some d => cases collectArgs rest <;> rfl
  · rfl

theorem scan_rename (hi : ∀ a b, ρ a = ρ b → a = b) (h : List Op) (names : List Str) : ∀ ts : List Token,
    scan (MacroSet.run (h.map (Op.rename ρ))) (names.map ρ) (ts.map (Token.rename ρ)) = (scan (MacroSet.run h) names ts).rename ρ := by
  intro ts
  induction ts with
  | nil => rfl
  | cons t rest ih =>
    cases t with
    | ident id =>
      simp only [List.map_cons, Token.rename, scan]
      have hm : ρ id ∈ names.map ρ ↔ id ∈ names := by
        constructor
        · intro h
          obtain ⟨x, hx, e⟩ := List.mem_map.1 h
          exact hi _ _ e ▸ hx
        · exact fun h => List.mem_map.2 ⟨id, h, rfl⟩
      simp only [hm]
      split
      · rw [ih]; exact push_rename (.nonRepl (.ident id)) _
      · rw [fnCallAt_rename hi, (get_rename hi h id).1]
        cases fnCallAt (MacroSet.run h) id rest with
        | some r => rfl
        | none =>
          dsimp only [Option.map_none]
          cases (MacroSet.run h).var.get id with
          | some b => rfl
          | none => rw [ih]; exact push_rename (.ident id) _
    | nonRepl x => simp only [List.map_cons, Token.rename, scan]; rw [ih]; exact push_rename (.nonRepl x) _
    | _ =>
      simp only [List.map_cons, Token.rename, scan]
      rw [ih]
      cases scan (MacroSet.run h) names rest <;> rfl

/-- A definition made of words that occur in the history and are no operators. -/
theorem defs_plain {h : List Op} (hp : ∀ o ∈ h, ∀ w ∈ o.body, Spec.PlainSpelling w) {n : Str} {d : Def} (hd : Table.run h n = some d) :
    match d with
    | .var b => ∀ w ∈ b, w ∈ Spec.allWords h ∧ Spec.PlainSpelling w
    | .fn p b => (∀ w ∈ p, w ∈ Spec.allWords h) ∧ ∀ w ∈ b, w ∈ Spec.allWords h ∧ Spec.PlainSpelling w := by
  rcases run_mem hd with ⟨b, rfl, ho⟩ | ⟨p, b, rfl, ho⟩
  · exact fun w hw => ⟨List.mem_flatMap.2 ⟨_, ho, List.mem_append_right _ hw⟩, hp _ ho w hw⟩
  · exact ⟨fun w hw => List.mem_flatMap.2 ⟨_, ho, List.mem_append_left _ hw⟩,
      fun w hw => ⟨List.mem_flatMap.2 ⟨_, ho, List.mem_append_right _ hw⟩, hp _ ho w hw⟩⟩

theorem tokenize_noOp (names : List Token) {ss : List Str} (h : ∀ s ∈ ss, Spec.PlainSpelling s) : AllTok NoOp (tokenize E names ss) := by
  intro t ht
  obtain ⟨s, hs, rfl⟩ := List.mem_map.1 ht
  have hp := h s hs
  unfold tokenizeOne
  split
  · exact ⟨by simp, by simp⟩
  · exact ⟨fun e => hp.1 (fromStr_punct e hp.2.2.1 hp.2.2.2).symm, fun e => hp.2.1 (fromStr_punct e hp.2.2.1 hp.2.2.2).symm⟩

theorem noOp_stepInv {h : List Op} (hp : ∀ o ∈ h, ∀ w ∈ o.body, Spec.PlainSpelling w) :
    StepInv E (MacroSet.run h) NoOp (fun _ => True) where
  diverge := trivial
  concatBegin := trivial
  concatEnd := trivial
  nonVariadic := trivial
  arity := by intros; trivial
  nonUnique := fun _ => trivial
  strNonArg := trivial
  argName := trivial
  paint := fun _ _ => ⟨by simp, by simp⟩
  concat := fun h => absurd rfl h.paste
  placemarker := ⟨by simp, by simp⟩
  comma := ⟨by decide, by decide⟩
  stringify := fun _ _ h => absurd rfl h.str
  fnBody := by
    intro id as b names hg _ t ht
    rw [(agrees_run h id).2] at hg
    split at hg
    · next hd => cases hg; exact .inr (tokenize_noOp names (fun s hs => ((defs_plain hp hd).2 s hs).2) t ht)
    · cases hg
  varBody := by
    intro id b hg t ht
    rw [(agrees_run h id).1] at hg
    split at hg
    · next hd => cases hg; exact .inr (tokenize_noOp [] (fun s hs => (defs_plain hp hd s hs).2) t ht)
    · cases hg
  select := by
    intros
    cases selectArg _ _ _ <;> trivial

theorem macroBody_rename {h : List Op} (hp : ∀ o ∈ h, ∀ w ∈ o.body, Spec.PlainSpelling w) (R : RenamesAll (nameOf E) ρ (Spec.allWords h)) :
    ∀ n names ts, AllTok NoOp ts →
    expandMacroBody E (MacroSet.run (h.map (Op.rename ρ))) n (names.map ρ) (ts.map (Token.rename ρ)) =
      (expandMacroBody E (MacroSet.run h) n names ts).rename ρ (List.map (Token.rename ρ)) := by
  have H := noOp_stepInv (E := E) hp
  intro n
  induction n with
  | zero => intros; rfl
  | succ n ih =>
    intro names ts ht
    have hg := scan_good (ms := MacroSet.run h) H.paint names ts ht
    unfold expandMacroBody
    rw [scan_rename R.inj]
    cases hs : scan (MacroSet.run h) names ts with
    | done out => rfl
    | fnCall pre id a b args rest =>
      rw [hs] at hg
      obtain ⟨_, h2, h3, h4, h5, h6, _⟩ := hg
      have hd : Table.run h id = some (.fn a b) := by
        rw [(agrees_run h id).2] at h2
        split at h2
        · next hd => cases h2; exact hd
        · cases h2
      have hw := defs_plain hp hd
      simp only [Scan.rename]
      rw [argNames_rename R hw.1]
      cases hn : tokenizeArgNames E a with
      | error e => rfl
      | ok an =>
        simp only [Res.rename]
        rw [tokenize_rename R an (fun s hs => (hw.2 s hs).1)]
        have h7 := fnBody_rename R ih (expandMacroBody_sat H n) names id (argNamesGo_argName a false [] an (by rintro _ ⟨⟩) hn)
          (args := some args) (by rintro _ ⟨⟩; exact h6) (tokenize_noOp (E := E) an (fun s hs => (hw.2 s hs).2))
        rw [Option.map_some] at h7
        rw [h7]
        have h8 := expandFnMacroBody_sat H (expandMacroBody_sat H n) (names := names) h2 hn h3 h6
        revert h8
        cases expandFnMacroBody E (expandMacroBody E (MacroSet.run h) n) names id an (some args) (tokenize E an b) with
        | error e => intro _; rfl
        | ok ex =>
          intro h8
          simp only [Res.rename]
          rw [← List.map_append, ← List.map_append]
          exact ih _ _ ((h4.append h8).append h5)
    | varRef pre id b rest =>
      rw [hs] at hg
      obtain ⟨_, h2, h3, h4, _⟩ := hg
      have hd : Table.run h id = some (.var b) := by
        rw [(agrees_run h id).1] at h2
        split at h2
        · next hd => cases h2; exact hd
        · cases h2
      have hw := defs_plain hp hd
      simp only [Scan.rename]
      have h6 := tokenize_rename R [] (fun s hs => (hw s hs).1)
      rw [show ([] : List Token).map (Token.rename ρ) = [] from rfl] at h6
      rw [h6, varBody_rename R.inj ih names id (tokenize_noOp (E := E) [] (fun s hs => (hw s hs).2))]
      have h8 := expandVarMacroBody_sat H (expandMacroBody_sat H n) (names := names) (name := id) (H.varBody id b h2)
      revert h8
      cases expandVarMacroBody E (expandMacroBody E (MacroSet.run h) n) names id (tokenize E [] b) with
      | error e => intro _; rfl
      | ok ex =>
        intro h8
        simp only [Res.rename]
        rw [← List.map_append, ← List.map_append]
        exact ih _ _ ((h3.append h8).append h4)

theorem detokenizeTok_rename (n : Nat) : ∀ t : Token,
    (t.rename ρ).detokenize n = (t.detokenize n).rename ρ (Option.map (MacroToken.rename ρ)) := by
  intro t
  induction t with
  | nonRepl t ih => exact ih
  | varArgs => simp only [Token.rename, Token.detokenize]; split <;> rfl
  | _ => rfl

theorem detokenize_rename (n : Nat) : ∀ ts : List Token,
    detokenize n (ts.map (Token.rename ρ)) = (detokenize n ts).rename ρ (List.map (MacroToken.rename ρ)) := by
  intro ts
  induction ts with
  | nil => rfl
  | cons t ts ih =>
    simp only [List.map_cons, detokenize, bind, Except.bind]
    rw [detokenizeTok_rename, ih]
    cases t.detokenize n with
    | error e => rfl
    | ok m =>
      cases detokenize n ts with
      | error e => rfl
      | ok ms => cases m <;> rfl

end CMacro
