import Verif.Spec.Pointers
import Verif.Props.SizeOf

/-!
# C100: pointers to constant objects
-/

namespace CMacro
open Parser Spec

/-- **C100**, the full statement: a cast to a pointer type is a cast to the Rust type in which each pointer is `*const` exactly if what it
points to is constant in C. -/
def C100_statement : Prop :=
  ∀ (C : Ctx) (name : Str) (as : List MacroToken) (xs : List Str) (r : List MacroToken) (i : Nat) (p : Str) (q : List Str) (T : Str) (B : List RTok)
    (q' : List Str) (stars : List (List Str)),
    C.env.Lawful → CalmCtx C → Word C.env name → FnMacro.parseArgs as = some (xs, r) → (∀ x ∈ xs, Word C.env x) →
    (∀ x ∈ xs, C.macroArgTy name x = none) → xs[i]? = some p → Word C.env T →
    (∀ R, C.resolveTy T = some R → StableTy C.ffiPrefix R) → BaseSpelled C T B → Qualifiers q → Qualifiers q' → (∀ s ∈ stars, Qualifiers s) →
    stars ≠ [] →
    ∃ m g, FnMacro.parse C.env name as (.punct c!"(" :: (pointerWords q T q' stars ++ [.punct c!")", .arg i])) = .ok m ∧
      m.Generates C (.ok g) ∧ g.bodyToks = [.punct c!"$", .id p, .id c!"as"] ++ pointerText (q ++ q') B stars

/-- The tree of a name with qualifiers. -/
def Qualed (t u : Ty) : Prop := u = t ∨ ∃ q, u = .qualified t q

theorem punct_hash {p : Str} (h : p = c!"*" ∨ p = c!")") : c!"##" ≠ p := by rcases h with rfl | rfl <;> decide

theorem base_word (E : Env) {T : Str} {b : BuiltInType} (h : (T, b) ∈ [(c!"char", BuiltInType.char), (c!"int", .int), (c!"void", .void), (c!"bool", .bool),
      (c!"float", .float), (c!"double", .double)]) {q q' : List Str} (hq : Qualifiers q) (hq' : Qualifiers q') (p : Str) :
    ∃ u o, (∀ r, seq (tyBase E) (opt constVolatile) (q.map .ident ++ .ident T :: (q'.map .ident ++ .punct p :: r)) = some ((u, o), .punct p :: r)) ∧
      Qualed (.builtIn b) (u.qualifyOpt o) := by
  simp only [List.mem_cons, List.not_mem_nil, or_false, Prod.mk.injEq, Qualifiers] at h hq hq'
  rcases h with ⟨rfl, rfl⟩ | ⟨rfl, rfl⟩ | ⟨rfl, rfl⟩ | ⟨rfl, rfl⟩ | ⟨rfl, rfl⟩ | ⟨rfl, rfl⟩ <;>
  rcases hq with rfl | rfl | rfl | rfl | rfl <;> rcases hq' with rfl | rfl | rfl | rfl | rfl
  all_goals first
    | exact ⟨_, _, fun _ => rfl, .inl rfl⟩
    | exact ⟨_, _, fun _ => rfl, .inr ⟨_, rfl⟩⟩

theorem base_name (E : Env) {T : Str} (h : T ∉ tyKeywords) {q q' : List Str} (hq : Qualifiers q) (hq' : Qualifiers q') {p : Str}
    (hp : c!"##" ≠ p) :
    ∃ u o, (∀ r, seq (tyBase E) (opt constVolatile) (q.map .ident ++ .ident T :: (q'.map .ident ++ .punct p :: r)) = some ((u, o), .punct p :: r)) ∧
      Qualed (.ident (.plain T) false) (u.qualifyOpt o) := by
  simp only [Spec.tyKeywords, List.mem_cons, List.not_mem_nil, or_false, not_or] at h
  obtain ⟨a1, a2, a3, a4, a5, a6, a7, a8, a9, a10, a11, a12, a13⟩ := h
  simp only [List.mem_cons, List.not_mem_nil, or_false, Qualifiers] at hq hq'
  rcases hq with rfl | rfl | rfl | rfl | rfl <;> rcases hq' with rfl | rfl | rfl | rfl | rfl
  all_goals
    simp [tyBase, simpleTy, doubleTy, intTy, intTyLongLong, intTyLength, intTyPlain, identTy, seq, opt,
      constVolatile, Parser.or, value, permutation, permGo, permStep, permDone, keyword_ne, keyword_self, keyword_nil,
      map, mapOpt, terminated, a1, a2, a3, a4, a5, a6, a7, a8, a9, a10, a11, a12, a13, qualPart, optPart, intSignedness,
      intLength, kwPart, parseConcatIdent, macroArg, macroId, takeOne, satisfy, many0, many0F, preceded, delimited,
      «meta», comment, punct, hp, keyword, Ty.qualifyOpt, Ty.qualify, Qualifier.or, Qualed]
    first
      | exact ⟨_, _, ⟨rfl, rfl⟩, .inl rfl⟩
      | exact ⟨_, _, ⟨rfl, rfl⟩, .inr ⟨_, rfl⟩⟩

/-- What the qualifiers next to a star are read as. -/
theorem quals_read {s : List Str} (hs : Qualifiers s) :
    ∃ o : Option Qualifier, (o.elim false (·.isConst) = true ↔ c!"const" ∈ s) ∧ ∀ r : List MacroToken, (∀ r', r ≠ .ident c!"const" :: r') →
      (∀ r', r ≠ .ident c!"volatile" :: r') → opt constVolatile (s.map .ident ++ r) = some (o, r) := by
  have key : ∀ o : Option Qualifier, ((o.elim false (·.isConst) = true ↔ c!"const" ∈ s) ∧ ∀ r : List MacroToken, constVolatile r = none →
      keyword c!"const" r = none → keyword c!"volatile" r = none → opt constVolatile (s.map .ident ++ r) = some (o, r)) →
      ∃ o : Option Qualifier, (o.elim false (·.isConst) = true ↔ c!"const" ∈ s) ∧ ∀ r : List MacroToken, (∀ r', r ≠ .ident c!"const" :: r') →
        (∀ r', r ≠ .ident c!"volatile" :: r') → opt constVolatile (s.map .ident ++ r) = some (o, r) := by
    intro o ⟨ho, h⟩
    refine ⟨o, ho, fun r h1 h2 => h r (constVolatile_none h1 h2) ?_ ?_⟩
    · cases r with
      | nil => rfl
      | cons t r => cases t <;> first | rfl | exact keyword_ne (by rintro rfl; exact h1 _ rfl)
    · cases r with
      | nil => rfl
      | cons t r => cases t <;> first | rfl | exact keyword_ne (by rintro rfl; exact h2 _ rfl)
  simp only [List.mem_cons, List.not_mem_nil, or_false, Qualifiers] at hs
  rcases hs with rfl | rfl | rfl | rfl | rfl
  · exact key none ⟨by simp, fun r hn hc hv => by simp [opt, hn]⟩
  · exact key (some .const) ⟨by decide, fun r hn hc hv => by
      simp [opt, constVolatile, Parser.or, value, map, permutation, permGo, permStep, permDone, keyword_self, keyword_ne, hc, hv]⟩
  · exact key (some .volatile) ⟨by decide, fun r hn hc hv => by
      simp [opt, constVolatile, Parser.or, value, map, permutation, permGo, permStep, permDone, keyword_self, keyword_ne, hc, hv]⟩
  · exact key (some .constVolatile) ⟨by decide, fun r hn hc hv => by
      simp [opt, constVolatile, Parser.or, value, map, permutation, permGo, permStep, permDone, keyword_self, keyword_ne, hc, hv]⟩
  · exact key (some .constVolatile) ⟨by decide, fun r hn hc hv => by
      simp [opt, constVolatile, Parser.or, value, map, permutation, permGo, permStep, permDone, keyword_self, keyword_ne, hc, hv]⟩

/-- The tokens of stars with their qualifiers. -/
abbrev starWords (stars : List (List Str)) : List MacroToken := stars.flatMap fun s => .punct c!"*" :: s.map .ident

theorem starWords_start (stars : List (List Str)) (r : List MacroToken) :
    ∃ p r', (p = c!"*" ∨ p = c!")") ∧ starWords stars ++ .punct c!")" :: r = .punct p :: r' := by
  cases stars with
  | nil => exact ⟨_, _, .inr rfl, rfl⟩
  | cons s stars => exact ⟨_, _, .inl rfl, rfl⟩

/-- All stars are read, each with its own qualifiers. -/
theorem stars_read : ∀ {stars : List (List Str)}, (∀ s ∈ stars, Qualifiers s) →
    ∃ os : List (Option Qualifier), (∀ r, many0 (preceded (seq (punct c!"*") «meta») (opt constVolatile)) (starWords stars ++ .punct c!")" :: r) =
        some (os, .punct c!")" :: r)) ∧ os.length = stars.length ∧
      ∀ x ∈ os.zip stars, x.1.elim false (·.isConst) = true ↔ c!"const" ∈ x.2 := by
  have hs : Shrinks (preceded (seq (punct c!"*") «meta») (opt constVolatile)) :=
    .preceded (.seq (strict_punct _).shrinks shrinks_meta) (.opt eats_constVolatile.shrinks)
  intro stars
  induction stars with
  | nil =>
    intro _
    refine ⟨[], fun r => ?_, rfl, by simp⟩
    rw [many0_eq hs]
    have : punct c!"*" (starWords [] ++ .punct c!")" :: r) = none := punct_ne (by decide) r
    simp only [preceded, map, seq, this]
    rfl
  | cons s stars ih =>
    intro h
    obtain ⟨os, h1, h2, h3⟩ := ih fun x hx => h x (by simp [hx])
    obtain ⟨o, h5, h4⟩ := quals_read (h s (by simp))
    refine ⟨o :: os, fun r => ?_, by simp [h2], ?_⟩
    · obtain ⟨p, r', hp, he⟩ := starWords_start stars r
      have h4 := h4 (starWords stars ++ .punct c!")" :: r) (by rw [he]; simp) (by rw [he]; simp)
      have he' : starWords (s :: stars) ++ .punct c!")" :: r = .punct c!"*" :: (s.map .ident ++ (starWords stars ++ .punct c!")" :: r)) := by
        simp [starWords]
      have hm : «meta» (s.map .ident ++ (starWords stars ++ .punct c!")" :: r)) = some ([], s.map .ident ++ (starWords stars ++ .punct c!")" :: r)) := by
        refine meta_none ?_
        cases s with
        | nil => rw [he]; intro x y e; cases e
        | cons w s => intro x y e; cases e
      rw [he', many0_eq hs]
      have : preceded (seq (punct c!"*") «meta») (opt constVolatile) (.punct c!"*" :: (s.map .ident ++ (starWords stars ++ .punct c!")" :: r))) =
          some (o, starWords stars ++ .punct c!")" :: r) := by
        simp only [preceded, map, seq, punct_self, hm, h4]
      rw [this]
      dsimp only
      rw [if_neg (by simp; omega), h1]
    · intro x hx
      rw [List.zip_cons_cons] at hx
      rcases List.mem_cons.1 hx with rfl | hx
      · exact h5
      · exact h3 x hx

/-- The tree of a type, what it becomes, and how that is printed. -/
def Prints (C : Ctx) (n : Nat) (t : Ty) (T : List RTok) : Prop :=
  CalmTy C.env n t ∧ ∃ t', (∀ st, t.finish C st = ⟨t', st, .ok none⟩) ∧ ∀ P : PCtx, P.C = C → t'.toks P = T

theorem prints_qualed {C : Ctx} {n : Nat} {t u : Ty} {T : List RTok} (hu : Qualed t u) (h1 : CalmTy C.env n t) {t' : Ty}
    (h2 : ∀ st, t.finish C st = ⟨t', st, .ok none⟩) (h3 : ∀ P : PCtx, P.C = C → t'.toks P = T) (h4 : ∀ x, t' ≠ .ptr x) : Prints C n u T := by
  rcases hu with rfl | ⟨q, rfl⟩
  · exact ⟨h1, t', h2, h3⟩
  · refine ⟨h1, .qualified t' q, fun st => by rw [Ty.finish, h2], fun P hP => ?_⟩
    rw [Ty.toks, h3 P hP]
    exact h4

theorem prints_ptr {C : Ctx} {n : Nat} {t : Ty} {T : List RTok} (h : Prints C n t T) {o : Option Qualifier} {s : List Str}
    (ho : o.elim false (·.isConst) = true ↔ c!"const" ∈ s) :
    Prints C n (t.addPtr o) ([.punct c!"*", .id (if c!"const" ∈ s then c!"const" else c!"mut")] ++ T) := by
  obtain ⟨h1, t', h2, h3⟩ := h
  cases o with
  | none =>
    have hs : c!"const" ∉ s := fun h => by simp [← ho] at h
    exact ⟨h1, .ptr t', fun st => by simp only [Ty.addPtr, Ty.qualifyOpt, Ty.finish, h2], fun P hP => by rw [if_neg hs, Ty.toks, h3 P hP]⟩
  | some q =>
    refine ⟨h1, .qualified (.ptr t') q, fun st => by simp only [Ty.addPtr, Ty.qualifyOpt, Ty.qualify, Ty.finish, h2], fun P hP => ?_⟩
    rw [Ty.toks, h3 P hP]
    by_cases hs : c!"const" ∈ s
    · rw [if_pos hs, if_pos (show q.isConst = true from ho.2 hs)]
    · rw [if_neg hs, if_neg fun h : q.isConst = true => hs (ho.1 h)]

theorem prints_stars {C : Ctx} {n : Nat} : ∀ {stars : List (List Str)} {os : List (Option Qualifier)} {t : Ty} {T : List RTok}, Prints C n t T →
    os.length = stars.length → (∀ x ∈ os.zip stars, x.1.elim false (·.isConst) = true ↔ c!"const" ∈ x.2) →
    Prints C n (os.foldl Ty.addPtr t) (ownText T stars)
  | [], os, t, T, h, hl, _ => by
    obtain rfl : os = [] := List.eq_nil_of_length_eq_zero hl
    exact h
  | s :: stars, [], t, T, h, hl, _ => by simp at hl
  | s :: stars, o :: os, t, T, h, hl, hz => by
    rw [List.foldl_cons, ownText]
    exact prints_stars (prints_ptr h (hz (o, s) (by simp))) (by simpa using hl) fun x hx => hz x (by simp [hx])

theorem foldl_ptr : ∀ (os : List (Option Qualifier)) (t : Ty), os ≠ [] → ∃ x, os.foldl Ty.addPtr t = .ptr x ∨ ∃ q, os.foldl Ty.addPtr t = .qualified (.ptr x) q
  | [], _, h => absurd rfl h
  | [o], t, _ => by
    cases o with
    | none => exact ⟨t, .inl rfl⟩
    | some q => exact ⟨t, .inr ⟨q, rfl⟩⟩
  | o :: o' :: os, t, _ => by rw [List.foldl_cons]; exact foldl_ptr (o' :: os) _ (by simp)

theorem keyword_type {x : Str} (h : x ∉ cKeywords) : x ∉ tyKeywords := fun hx => h ((by decide : ∀ y ∈ tyKeywords, y ∈ cKeywords) x hx)

theorem path_noPtr {ffi : Option RPath} {p : RPath} {t : Ty} (h : Ty.fromRust ffi (.path .plain p) = .ok t) : ∀ x, t ≠ .ptr x := by
  rintro x rfl
  simp only [Ty.fromRust] at h
  split at h
  · cases h
  · split at h <;> cases h

/-- A base type is read up to a star or a parenthesis, and printed as it should be. -/
theorem base_spelled {C : Ctx} {T : Str} {B : List RTok} (h : BaseSpelled C T B) (n : Nat) (hw : Word C.env T)
    (hst : ∀ R, C.resolveTy T = some R → StableTy C.ffiPrefix R) {q q' : List Str} (hq : Qualifiers q) (hq' : Qualifiers q') {p : Str}
    (hp : c!"##" ≠ p) :
    ∃ u o, (∀ r, seq (tyBase C.env) (opt constVolatile) (q.map .ident ++ .ident T :: (q'.map .ident ++ .punct p :: r)) = some ((u, o), .punct p :: r)) ∧
      Prints C n (u.qualifyOpt o) B := by
  have word : ∀ {b : BuiltInType}, (T, b) ∈ [(c!"char", BuiltInType.char), (c!"int", .int), (c!"void", .void), (c!"bool", .bool),
      (c!"float", .float), (c!"double", .double)] → (∀ P : PCtx, P.C = C → (Ty.builtIn b).toks P = B) →
      ∃ u o, (∀ r, seq (tyBase C.env) (opt constVolatile) (q.map .ident ++ .ident T :: (q'.map .ident ++ .punct p :: r)) = some ((u, o), .punct p :: r)) ∧
        Prints C n (u.qualifyOpt o) B := by
    intro b hb ht
    obtain ⟨u, o, h1, h2⟩ := base_word C.env hb hq hq' p
    exact ⟨u, o, h1, prints_qualed h2 trivial (fun _ => rfl) ht (by simp)⟩
  cases h with
  | char => exact word (b := .char) (by simp) fun P hP => by rw [(foreign_is P).1, hP]
  | int => exact word (b := .int) (by simp) fun P hP => by subst hP; exact prefixed_foreign _ _
  | void => exact word (b := .void) (by simp) fun P hP => by rw [(foreign_is P).2, hP]
  | bool => exact word (b := .bool) (by simp) fun P hP => rfl
  | float => exact word (b := .float) (by simp) fun P hP => rfl
  | double => exact word (b := .double) (by simp) fun P hP => rfl
  | @name _ pa h1 h2 =>
    obtain ⟨u, o, g1, g2⟩ := base_name C.env (keyword_type h1) hq hq' hp
    obtain ⟨t, ht⟩ := pathTy_ok (ffi := C.ffiPrefix) (p := pa)
    exact ⟨u, o, g1, prints_qualed g2 hw (fun st => by simp only [Ty.finish, IdentExpr.finish, h2, ht])
      (fun P hP => stable_toks (hst _ h2) ht P hP) (path_noPtr ht)⟩

/-- A pointer type is read, and printed with the qualifiers of each star. -/
theorem pointer_type {C : Ctx} {T : Str} {B : List RTok} (h : BaseSpelled C T B) (n : Nat) (hw : Word C.env T)
    (hst : ∀ R, C.resolveTy T = some R → StableTy C.ffiPrefix R) {q q' : List Str} {stars : List (List Str)} (hq : Qualifiers q) (hq' : Qualifiers q')
    (hs : ∀ s ∈ stars, Qualifiers s) (hne : stars ≠ []) :
    ∃ t t', (∀ rest, parseTy C.env (pointerWords q T q' stars ++ .punct c!")" :: rest) = some (t, .punct c!")" :: rest)) ∧
      CalmTy C.env n t ∧ (∀ st, t.finish C st = ⟨t', st, .ok none⟩) ∧ (∀ P : PCtx, P.C = C → t'.toks P = ownText B stars) ∧
      ∃ x, t' = .ptr x ∨ ∃ q, t' = .qualified (.ptr x) q := by
  obtain ⟨os, hos, hos2, hos3⟩ := stars_read hs
  obtain ⟨u, o, h1, h2⟩ := base_spelled h n hw hst hq hq' (p := c!"*") (by decide)
  obtain ⟨h3, t', h4, h5⟩ := prints_stars h2 hos2 hos3
  refine ⟨_, t', fun rest => ?_, h3, h4, h5, ?_⟩
  · cases stars with
    | nil => exact absurd rfl hne
    | cons s stars =>
      have h7 := hos rest
      have h6 := h1 (s.map .ident ++ (starWords stars ++ .punct c!")" :: rest))
      simp only [pointerWords, starWords, List.append_assoc, List.cons_append, List.flatMap_cons] at h6 h7 ⊢
      simp only [parseTy, h6, map, h7]
  · have hh := h4 ⟨[], false⟩
    obtain ⟨x, h | ⟨q, h⟩⟩ := foldl_ptr os (u.qualifyOpt o) (by rintro rfl; exact hne (List.eq_nil_of_length_eq_zero hos2.symm))
    · rw [h, Ty.finish] at hh
      exact ⟨_, .inl (Fin.mk.inj hh).1.symm⟩
    · rw [h, Ty.finish] at hh
      exact ⟨_, .inr ⟨q, (Fin.mk.inj hh).1.symm⟩⟩

/-- **C100**, what is generated: in a cast to a pointer type, each pointer is `*const` exactly if `const` stands behind its own star. -/
theorem C100_own (C : Ctx) (name : Str) (as : List MacroToken) (xs : List Str) (r : List MacroToken) (i : Nat) (p : Str) (q : List Str) (T : Str)
    (B : List RTok) (q' : List Str) (stars : List (List Str)) (hE : C.env.Lawful) (hC : CalmCtx C) (hn : Word C.env name)
    (ha : FnMacro.parseArgs as = some (xs, r)) (hxs : ∀ x ∈ xs, Word C.env x) (hty : ∀ x ∈ xs, C.macroArgTy name x = none) (hi : xs[i]? = some p)
    (hw : Word C.env T) (hst : ∀ R, C.resolveTy T = some R → StableTy C.ffiPrefix R) (hB : BaseSpelled C T B) (hq : Qualifiers q)
    (hq' : Qualifiers q') (hs : ∀ s ∈ stars, Qualifiers s) (hne : stars ≠ []) :
    ∃ m g, FnMacro.parse C.env name as (.punct c!"(" :: (pointerWords q T q' stars ++ [.punct c!")", .arg i])) = .ok m ∧
      m.Generates C (.ok g) ∧ g.bodyToks = [.punct c!"$", .id p, .id c!"as"] ++ ownText B stars := by
  have hli := (List.getElem?_eq_some_iff.1 hi).1
  have hdots : p ≠ c!"..." := by
    rintro rfl
    have : isIdentifier C.env c!"..." = true := isIdent_iff.2 (hxs _ (List.mem_of_getElem? hi))
    rw [dots_not_ident hE] at this
    cases this
  -- the type
  obtain ⟨t, t', ht, hc, hf, htoks, x, hx⟩ := pointer_type hB xs.length hw hst hq hq' hs hne
  have hv : t'.isVoid = false := by rcases hx with rfl | ⟨q, rfl⟩ <;> rfl
  let ts : List MacroToken := .punct c!"(" :: (pointerWords q T q' stars ++ [.punct c!")", .arg i])
  have hparse : MacroBody.parse C.env ts = some (.expr (.cast t (.var (.arg i))), []) := by
    have hr : Reads C.env 2 ts (.cast t (.var (.arg i))) := by
      intro rest hrest
      have h2 : lv C.env 2 ([.arg i] ++ rest) = some (.var (.arg i), rest) :=
        (((Gram.name (.arg (i := i))).ups (by omega : 0 ≤ 2) (by omega)).reads C.env) rest hrest
      have hk : (knot C.env).prec2 ([.arg i] ++ rest) = some (.var (.arg i), rest) := (knot_prec2 C.env _).trans h2
      have hstart : ∀ x r', pointerWords q T q' stars ++ .punct c!")" :: ([.arg i] ++ rest) ≠ .comment x :: r' := by
        intro x r' h
        simp only [pointerWords] at h
        cases q <;> cases h
      have hp : parenthesized (parseTy C.env) (.punct c!"(" :: (pointerWords q T q' stars ++ .punct c!")" :: ([.arg i] ++ rest))) =
          some (t, [.arg i] ++ rest) := by
        simp only [parenthesized, delimited, terminated, preceded, map, seq, punct_self, meta_none hstart, ht,
          meta_none (noComment_punct _ _)]
      have he : ts ++ rest = .punct c!"(" :: (pointerWords q T q' stars ++ .punct c!")" :: ([.arg i] ++ rest)) := by simp [ts]
      rw [he]
      show prec2 C.env (knot C.env) _ = _
      simp only [prec2, Parser.or, map, seq, hp, hk]
    have h12 := ((((((((((hr.up (by decide) (by simp)).up (by decide)
      (by simp)).up (by decide) (by simp)).up (by decide) (by simp)).up (by decide) (by simp)).up (by decide) (by simp)).up (by decide)
      (by simp)).up (by decide) (by simp)).up (by decide) (by simp)).up (by decide) (by simp))
    have hx := h12 [] (.inl rfl)
    rw [List.append_nil] at hx
    have hm : «meta» ts = some ([], ts) := meta_none (by intro s r e; simp [ts] at e)
    unfold MacroBody.parse
    rw [hm]
    simp only [ts] at hx ⊢
    simp only [Parser.or, allConsuming, map, hx]
  have h1 : LState.argTy ⟨xs.map fun _ => .unknown, false⟩ i = some .unknown := by simp [LState.argTy, hi]
  have hcalm := calm_generate_fn (f := ⟨name, xs, .expr (.cast t (.var (.arg i)))⟩) hC hE hn (.inl hxs) ⟨hc, hli⟩
  have hb : castAsBinary C t' (.var (.arg i)) = none := by unfold castAsBinary; split <;> simp_all
  have hs' : castOfString t' (.var (.arg i)) = false := by unfold castOfString; split <;> simp_all
  obtain ⟨g, hg, hbody, _⟩ := generates_of (m := ⟨name, xs, .expr (.cast t (.var (.arg i)))⟩) (N := 2) (b := .expr (.cast t' (.var (.arg i))))
    (st := ⟨xs.map fun _ => .unknown, false⟩) (ret := some t') (out := [.punct c!"$", .id p, .id c!"as"] ++ ownText B stars) (argTypes_none hty) hcalm
    (by
      intro n hn
      obtain ⟨n, rfl⟩ : ∃ k, n = k + 1 + 1 := ⟨n - 2, by omega⟩
      simp only [MacroBody.finish, Expr.finish, finishStep, hf, finishVar, IdentExpr.finish, h1, hb, hs', Bool.false_eq_true, if_false])
    (fun k hk => by
      obtain rfl := hk (by
        cases xs with
        | nil => simp at hli
        | cons x xs => simp [asMacro, ArgTy.isKnown])
      simp [MacroBody.toks, Expr.toks, castToks, Expr.isZeroLit, hv, castOperand, Expr.prec, parenIf, varToks, IdentExpr.toks, argToks, fnLoc, hi, hdots, htoks])
  refine ⟨_, g, ?_, hg, hbody⟩
  simp only [FnMacro.parse, isIdent_iff.2 hn, if_true, ha]
  simp only [ts] at hparse
  rw [hparse]

/-- When the two ways of writing the type agree. -/
theorem pointer_own : ∀ (stars : List (List Str)) (q : List Str) (B B' : List RTok), B.length = B'.length →
    (pointerText q B stars = ownText B' stars ↔ B = B' ∧ ∀ s ∈ stars, c!"const" ∈ s ↔ c!"const" ∈ q)
  | [], q, B, B', _ => by simp [pointerText, ownText]
  | s :: stars, q, B, B', hl => by
    rw [pointerText, ownText, pointer_own stars s _ _ (by simp [hl])]
    by_cases h1 : c!"const" ∈ s <;> by_cases h2 : c!"const" ∈ q <;> simp [h1, h2]

/-- **C100**, exactly: the type is the right one if and only if `const` stands in every place of the C type, or in none. -/
theorem C100_exact (C : Ctx) (name : Str) (as : List MacroToken) (xs : List Str) (r : List MacroToken) (i : Nat) (p : Str) (q : List Str) (T : Str)
    (B : List RTok) (q' : List Str) (stars : List (List Str)) (hE : C.env.Lawful) (hC : CalmCtx C) (hn : Word C.env name)
    (ha : FnMacro.parseArgs as = some (xs, r)) (hxs : ∀ x ∈ xs, Word C.env x) (hty : ∀ x ∈ xs, C.macroArgTy name x = none) (hi : xs[i]? = some p)
    (hw : Word C.env T) (hst : ∀ R, C.resolveTy T = some R → StableTy C.ffiPrefix R) (hB : BaseSpelled C T B) (hq : Qualifiers q)
    (hq' : Qualifiers q') (hs : ∀ s ∈ stars, Qualifiers s) (hne : stars ≠ []) :
    (∃ m g, FnMacro.parse C.env name as (.punct c!"(" :: (pointerWords q T q' stars ++ [.punct c!")", .arg i])) = .ok m ∧
      m.Generates C (.ok g) ∧ g.bodyToks = [.punct c!"$", .id p, .id c!"as"] ++ pointerText (q ++ q') B stars) ↔
      ∀ s ∈ stars, c!"const" ∈ s ↔ c!"const" ∈ q ++ q' := by
  obtain ⟨m, g, h1, h2, h3⟩ := C100_own C name as xs r i p q T B q' stars hE hC hn ha hxs hty hi hw hst hB hq hq' hs hne
  constructor
  · rintro ⟨m', g', h1', h2', h3'⟩
    rw [h1] at h1'
    cases h1'
    cases h2.unique h2'
    rw [h3, List.append_cancel_left_eq] at h3'
    exact ((pointer_own stars (q ++ q') B B rfl).1 h3'.symm).2
  · intro h
    exact ⟨m, g, h1, h2, by rw [h3, (pointer_own stars (q ++ q') B B rfl).2 ⟨rfl, h⟩]⟩

/-- **C100**, the part that holds. What is missing: types in which `const` stands in some of the places, but not in all. -/
theorem C100_partial (C : Ctx) (name : Str) (as : List MacroToken) (xs : List Str) (r : List MacroToken) (i : Nat) (p : Str) (q : List Str) (T : Str)
    (B : List RTok) (q' : List Str) (stars : List (List Str)) (hE : C.env.Lawful) (hC : CalmCtx C) (hn : Word C.env name)
    (ha : FnMacro.parseArgs as = some (xs, r)) (hxs : ∀ x ∈ xs, Word C.env x) (hty : ∀ x ∈ xs, C.macroArgTy name x = none) (hi : xs[i]? = some p)
    (hw : Word C.env T) (hst : ∀ R, C.resolveTy T = some R → StableTy C.ffiPrefix R) (hB : BaseSpelled C T B) (hq : Qualifiers q)
    (hq' : Qualifiers q') (hs : ∀ s ∈ stars, Qualifiers s) (hne : stars ≠ []) (h : ∀ s ∈ stars, c!"const" ∈ s ↔ c!"const" ∈ q ++ q') :
    ∃ m g, FnMacro.parse C.env name as (.punct c!"(" :: (pointerWords q T q' stars ++ [.punct c!")", .arg i])) = .ok m ∧
      m.Generates C (.ok g) ∧ g.bodyToks = [.punct c!"$", .id p, .id c!"as"] ++ pointerText (q ++ q') B stars :=
  (C100_exact C name as xs r i p q T B q' stars hE hC hn ha hxs hty hi hw hst hB hq hq' hs hne).2 h

/-! ## Examples -/

/-- `#define S(x) (const char *) x` becomes `$x as *mut c_char`: the full statement is false of the code. -/
theorem C100_false : ¬ C100_statement := by
  intro h
  have h1 := h (Ctx.unit asciiEnv) c!"S" [.ident c!"x"] [c!"x"] [] 0 c!"x" [c!"const"] c!"char" _ [] [[]] asciiEnv_lawful (calmCtx_unit _)
    (isIdent_iff.1 (by decide +kernel)) rfl (by intro x hx; simp at hx; subst hx; exact isIdent_iff.1 (by decide +kernel)) (by simp [Ctx.unit]) rfl
    (isIdent_iff.1 (by decide +kernel)) (by simp [Ctx.unit]) .char (by simp [Qualifiers]) (by simp [Qualifiers]) (by simp [Qualifiers]) (by simp)
  have := (C100_exact (Ctx.unit asciiEnv) c!"S" [.ident c!"x"] [c!"x"] [] 0 c!"x" [c!"const"] c!"char" _ [] [[]] asciiEnv_lawful (calmCtx_unit _)
    (isIdent_iff.1 (by decide +kernel)) rfl (by intro x hx; simp at hx; subst hx; exact isIdent_iff.1 (by decide +kernel)) (by simp [Ctx.unit]) rfl
    (isIdent_iff.1 (by decide +kernel)) (by simp [Ctx.unit]) .char (by simp [Qualifiers]) (by simp [Qualifiers]) (by simp [Qualifiers]) (by simp)).1 h1
  simp at this

/-- `#define P(a, x) (const point_t * const volatile * const) x` becomes `$x as *const *const geo::Point`. -/
example : ∃ m g, FnMacro.parse asciiEnv c!"P" [.ident c!"a", .ident c!"x"] [.punct c!"(", .ident c!"const", .ident c!"point_t", .punct c!"*",
      .ident c!"const", .ident c!"volatile", .punct c!"*", .ident c!"const", .punct c!")", .arg 1] = .ok m ∧
    m.Generates geoCtx (.ok g) ∧ g.bodyToks = q!"$ x as * const * const geo :: Point" :=
  C100_partial geoCtx c!"P" [.ident c!"a", .ident c!"x"] [c!"a", c!"x"] [] 1 c!"x" [c!"const"] c!"point_t" _ [] [[c!"const", c!"volatile"], [c!"const"]]
    asciiEnv_lawful geoCtx_calm (word_ascii (by decide +kernel)) (by decide +kernel)
    (by intro x hx; simp at hx; rcases hx with rfl | rfl <;> exact word_ascii (by decide +kernel)) (fun _ _ => rfl) rfl (word_ascii (by decide +kernel))
    (fun R => geo_stable _ R) (.name (id := c!"point_t") (p := ⟨false, [c!"geo", c!"Point"]⟩) (by decide) rfl) (by simp [Qualifiers]) (by simp [Qualifiers]) (by simp [Qualifiers]) (by simp) (by simp)

/-- `#define P(x) (int * * volatile) x` becomes `$x as *mut *mut ::std::os::raw::c_int`. -/
example : ∃ m g, FnMacro.parse asciiEnv c!"P" [.ident c!"x"] [.punct c!"(", .ident c!"int", .punct c!"*", .punct c!"*", .ident c!"volatile", .punct c!")", .arg 0] = .ok m ∧
    m.Generates geoCtx (.ok g) ∧ g.bodyToks = q!"$ x as * mut * mut :: std :: os :: raw :: c_int" :=
  C100_partial geoCtx c!"P" [.ident c!"x"] [c!"x"] [] 0 c!"x" [] c!"int" _ [] [[], [c!"volatile"]]
    asciiEnv_lawful geoCtx_calm (word_ascii (by decide +kernel)) (by decide +kernel)
    (by intro x hx; simp at hx; subst hx; exact word_ascii (by decide +kernel)) (fun _ _ => rfl) rfl (word_ascii (by decide +kernel))
    (fun R => geo_stable _ R) .int (by simp [Qualifiers]) (by simp [Qualifiers]) (by simp [Qualifiers]) (by simp) (by simp)

/-- `#define P(x) (char * const) x`, a constant pointer to characters that may be changed, becomes `$x as *const c_char`. -/
example : ∃ m g, FnMacro.parse asciiEnv c!"P" [.ident c!"x"] [.punct c!"(", .ident c!"char", .punct c!"*", .ident c!"const", .punct c!")", .arg 0] = .ok m ∧
    m.Generates geoCtx (.ok g) ∧ g.bodyToks = q!"$ x as * const :: std :: os :: raw :: c_char" :=
  C100_own geoCtx c!"P" [.ident c!"x"] [c!"x"] [] 0 c!"x" [] c!"char" _ [] [[c!"const"]]
    asciiEnv_lawful geoCtx_calm (word_ascii (by decide +kernel)) (by decide +kernel)
    (by intro x hx; simp at hx; subst hx; exact word_ascii (by decide +kernel)) (fun _ _ => rfl) rfl (word_ascii (by decide +kernel))
    (fun R => geo_stable _ R) .char (by simp [Qualifiers]) (by simp [Qualifiers]) (by simp [Qualifiers]) (by simp)

/-- `#define DECL(f) const char * f(const char * s);` declares a function that takes and returns `*mut c_char`. -/
theorem C100_false_decl : pipeFn 20 (Ctx.unit asciiEnv) [.defineFn c!"DECL" [c!"f"]
      [c!"const", c!"char", c!"*", c!"f", c!"(", c!"const", c!"char", c!"*", c!"s", c!")", c!";"]] c!"DECL" =
    .gen (.ok (.macro c!"DECL" [q!"$ f : ident"] (q!"extern" ++ [.str c!"C"] ++ q!"{ pub fn $ f ( s : * mut c_char ) -> * mut c_char ; }"))) := by
  decide +kernel

end CMacro
