import Verif.Spec.Template
import Verif.Proofs.Consult
import Verif.Proofs.Ident

/-!
# Lemmas for C94
-/

namespace CMacro
open Spec (HTok fillText GenTemplate ParamList IsIdent)

/-- The text is the same for all names, except for the names themselves. -/
def Uni (V : List Str → Prop) (f : List Str → List RTok) : Prop := ∃ T, ∀ qs, V qs → f qs = fillText qs T

/-- The same for lists of texts. -/
def UniL (V : List Str → Prop) (f : List Str → List (List RTok)) : Prop := ∃ T : List (List HTok), ∀ qs, V qs → f qs = T.map (fillText qs)

section
variable {V : List Str → Prop} {f g : List Str → List RTok} {k k' : List Str → List (List RTok)}

theorem fillText_append (qs : List Str) (a b : List HTok) : fillText qs (a ++ b) = fillText qs a ++ fillText qs b := List.map_append

theorem fillText_const (qs : List Str) (t : List RTok) : fillText qs (t.map .tok) = t := by
  simp only [fillText, List.map_map]
  exact List.map_id' t

theorem uni_const (t : List RTok) : Uni V (fun _ => t) := ⟨t.map .tok, fun qs _ => (fillText_const qs t).symm⟩

theorem uni_app (hf : Uni V f) (hg : Uni V g) : Uni V (fun qs => f qs ++ g qs) := by
  obtain ⟨a, ha⟩ := hf
  obtain ⟨b, hb⟩ := hg
  exact ⟨a ++ b, fun qs h => by show f qs ++ g qs = _; rw [ha qs h, hb qs h, fillText_append]⟩

theorem uni_congr (h : ∀ qs, V qs → f qs = g qs) (hg : Uni V g) : Uni V f := by
  obtain ⟨b, hb⟩ := hg
  exact ⟨b, fun qs hq => by rw [h qs hq, hb qs hq]⟩

theorem uni_ite {c : Prop} [Decidable c] (hf : Uni V f) (hg : Uni V g) : Uni V (fun qs => if c then f qs else g qs) := by
  by_cases h : c
  · simpa [h] using hf
  · simpa [h] using hg

theorem uniL_nil : UniL V (fun _ => []) := ⟨[], fun _ _ => rfl⟩

theorem uniL_cons (hf : Uni V f) (hk : UniL V k) : UniL V (fun qs => f qs :: k qs) := by
  obtain ⟨a, ha⟩ := hf
  obtain ⟨b, hb⟩ := hk
  exact ⟨a :: b, fun qs h => by show f qs :: k qs = _; rw [ha qs h, hb qs h, List.map_cons]⟩

theorem uniL_app (hk : UniL V k) (hk' : UniL V k') : UniL V (fun qs => k qs ++ k' qs) := by
  obtain ⟨a, ha⟩ := hk
  obtain ⟨b, hb⟩ := hk'
  exact ⟨a ++ b, fun qs h => by show k qs ++ k' qs = _; rw [ha qs h, hb qs h, List.map_append]⟩

theorem uniL_const (t : List (List RTok)) : UniL V (fun _ => t) := by
  refine ⟨t.map (·.map .tok), fun qs _ => ?_⟩
  rw [List.map_map]
  exact (List.map_id'' (fun x => fillText_const qs x) t).symm

theorem uniL_map {α : Type} {F : α → List Str → List RTok} : ∀ {xs : List α}, (∀ x ∈ xs, Uni V (F x)) → UniL V (fun qs => xs.map fun x => F x qs)
  | [], _ => uniL_nil
  | x :: xs, h => uniL_cons (h x List.mem_cons_self) (uniL_map fun y hy => h y (List.mem_cons_of_mem _ hy))

/-- From the head and the rest. -/
theorem uniL_cases (hk : UniL V k) : (∀ qs, V qs → k qs = []) ∨ ∃ f k', Uni V f ∧ UniL V k' ∧ ∀ qs, V qs → k qs = f qs :: k' qs := by
  obtain ⟨T, hT⟩ := hk
  cases T with
  | nil => exact .inl hT
  | cons t ts => exact .inr ⟨fun qs => fillText qs t, fun qs => ts.map (fillText qs), ⟨t, fun _ _ => rfl⟩, ⟨ts, fun _ _ => rfl⟩, hT⟩

theorem uni_kid0 (hk : UniL V k) : Uni V (fun qs => kid0 (k qs)) := by
  rcases uniL_cases hk with h | ⟨f, k', hf, _, h⟩
  · exact uni_congr (g := fun _ => []) (fun qs hq => by rw [h qs hq]; rfl) (uni_const [])
  · exact uni_congr (fun qs hq => by rw [h qs hq]; rfl) hf

theorem uni_kid1 (hk : UniL V k) : Uni V (fun qs => kid1 (k qs)) := by
  rcases uniL_cases hk with h | ⟨f, k', _, hk', h⟩
  · exact uni_congr (g := fun _ => []) (fun qs hq => by rw [h qs hq]; rfl) (uni_const [])
  · rcases uniL_cases hk' with h' | ⟨g, k'', hg, _, h'⟩
    · exact uni_congr (g := fun _ => []) (fun qs hq => by rw [h qs hq, h' qs hq]; rfl) (uni_const [])
    · exact uni_congr (fun qs hq => by rw [h qs hq, h' qs hq]; rfl) hg

theorem uni_sep (sep : List RTok) (hk : UniL V k) : Uni V (fun qs => sepToks sep (k qs)) := by
  obtain ⟨T, hT⟩ := hk
  have : ∀ T : List (List HTok), Uni V (fun qs => sepToks sep (T.map (fillText qs))) := by
    intro T
    induction T with
    | nil => exact uni_const []
    | cons t ts ih =>
      cases ts with
      | nil => exact ⟨t, fun qs _ => rfl⟩
      | cons u us => exact uni_app (uni_app ⟨t, fun qs _ => rfl⟩ (uni_const sep)) ih
  exact uni_congr (fun qs hq => by rw [hT qs hq]) (this T)

theorem uni_flatten (hk : UniL V k) : Uni V (fun qs => (k qs).flatten) := by
  obtain ⟨T, hT⟩ := hk
  have : ∀ T : List (List HTok), Uni V (fun qs => (T.map (fillText qs)).flatten) := by
    intro T
    induction T with
    | nil => exact uni_const []
    | cons t ts ih => exact uni_app ⟨t, fun qs _ => rfl⟩ ih
  exact uni_congr (fun qs hq => by rw [hT qs hq]) (this T)

theorem uni_comma (hk : UniL V k) : Uni V (fun qs => commaToks (k qs)) := by
  obtain ⟨T, hT⟩ := hk
  have : ∀ T : List (List HTok), Uni V (fun qs => commaToks (T.map (fillText qs))) := by
    intro T
    induction T with
    | nil => exact uni_const []
    | cons t ts ih => exact uni_app (uni_app ⟨t, fun qs _ => rfl⟩ (uni_const _)) ih
  exact uni_congr (fun qs hq => by rw [hT qs hq]) (this T)

theorem uniL_zip {α : Type} {F : List Str → α → List RTok → List RTok} (hF : ∀ x f, Uni V f → Uni V (fun qs => F qs x (f qs))) :
    ∀ (xs : List α) {k : List Str → List (List RTok)}, UniL V k → UniL V (fun qs => List.zipWith (F qs) xs (k qs))
  | [], _, _ => uniL_nil
  | x :: xs, k, hk => by
    rcases uniL_cases hk with h | ⟨f, k', hf, hk', h⟩
    · obtain ⟨T, hT⟩ := uniL_nil (V := V)
      exact ⟨T, fun qs hq => by show List.zipWith (F qs) (x :: xs) (k qs) = _; rw [h qs hq, ← hT qs hq]; rfl⟩
    · obtain ⟨T, hT⟩ := uniL_cons (hF x f hf) (uniL_zip hF xs hk')
      exact ⟨T, fun qs hq => by show List.zipWith (F qs) (x :: xs) (k qs) = _; rw [h qs hq, ← hT qs hq]; rfl⟩

end

/-- Texts put together from such texts. -/
macro "uni" : tactic => `(tactic| repeat' first
  | assumption | exact uni_const _ | exact uniL_const _ | apply uni_app | apply uni_kid0 | apply uni_kid1 | apply uni_sep | apply uni_comma | apply uni_flatten
  | apply uni_ite | apply uniL_cons | apply uniL_app)

section
variable {C : Ctx} {m : Str} {k : Nat} {dots : Nat → Prop} {types : Nat → Option RTy} {exp : Bool}

local notation "𝓥" => ParamList C m k dots types

local notation "P" qs:max => PCtx.mk C (fnLoc qs) exp

theorem index_lt {qs : List Str} (h : 𝓥 qs) {i : Nat} (hi : i < k) : ∃ q, qs[i]? = some q := by
  have : i < qs.length := by rw [h.length]; exact hi
  exact ⟨qs[i], List.getElem?_eq_getElem this⟩

theorem index_ge {qs : List Str} (h : 𝓥 qs) {i : Nat} (hi : ¬ i < k) : qs[i]? = none := by
  rw [List.getElem?_eq_none_iff, h.length]
  omega

theorem uni_param {i : Nat} (hi : i < k) : Uni 𝓥 (fun qs => match qs[i]? with | some n => [.id n] | none => [.bad]) := by
  refine ⟨[.param i], fun qs hq => ?_⟩
  obtain ⟨q, h⟩ := index_lt hq hi
  simp only [h, fillText, List.map_cons, List.map_nil, HTok.fill, List.getD_eq_getElem?_getD, Option.getD_some]

theorem uni_name (i : Nat) : Uni 𝓥 (fun qs => match qs[i]? with | some n => [.id n] | none => [.bad]) := by
  by_cases hi : i < k
  · exact uni_param hi
  · exact uni_congr (g := fun _ => [.bad]) (fun qs hq => by rw [index_ge hq hi]) (uni_const _)

theorem uni_arg (i : Nat) : Uni 𝓥 (fun qs => argToks (P qs) i) := by
  by_cases hi : i < k
  · by_cases hd : dots i
    · refine uni_congr (g := fun _ => q!"$ ( $ __VA_ARGS__ ) , *") (fun qs hq => ?_) (uni_const _)
      have := (hq.ellipsis i hi).2 hd
      simp only [argToks, fnLoc, this, if_pos]
    · refine uni_congr (g := fun qs => (if exp then q!"$" else []) ++ (match qs[i]? with | some n => [.id n] | none => [.bad])) (fun qs hq => ?_)
        (uni_app (uni_const _) (uni_param hi))
      obtain ⟨q, h⟩ := index_lt hq hi
      have hn : q ≠ c!"..." := fun he => hd ((hq.ellipsis i hi).1 (by rw [h, he]))
      simp only [argToks, fnLoc, h, if_neg hn]
      cases exp <;> rfl
  · exact uni_congr (g := fun _ => [.bad]) (fun qs hq => by simp only [argToks, fnLoc, index_ge hq hi]) (uni_const _)

theorem uni_cont (c : IdentCont) : Uni 𝓥 (fun qs => c.toks (P qs)) := by
  cases c with
  | arg i => exact uni_arg i
  | plain id => exact uni_const _
  | int n => exact uni_const _

theorem uni_ident (n : IdentExpr) : Uni 𝓥 (fun qs => n.toks (P qs)) := by
  cases n with
  | arg i => exact uni_arg i
  | plain id => exact uni_const _
  | concat ids =>
    simp only [IdentExpr.toks]
    have := uniL_map (V := 𝓥) (xs := ids) (F := fun c qs => c.toks (P qs)) fun c _ => uni_cont c
    uni

theorem uni_ty : ∀ t : Ty, Uni 𝓥 (fun qs => t.toks (P qs))
  | .builtIn b => by simp only [Ty.toks]; exact uni_const _
  | .ident name s => by simp only [Ty.toks]; exact uni_ident name
  | .path lc segs => by simp only [Ty.toks]; exact uni_const _
  | .ptr t => by
    have := uni_ty t
    simp only [Ty.toks]
    uni
  | .qualified t q => by
    cases t with
    | ptr t =>
      have := uni_ty t
      simp only [Ty.toks]
      uni
    | builtIn b => simp only [Ty.toks]; exact uni_const _
    | ident name s => simp only [Ty.toks]; exact uni_ident name
    | path lc segs => simp only [Ty.toks]; exact uni_const _
    | qualified t q => exact uni_ty (.qualified t q)

theorem uni_charPtr {f : List Str → List RTok} (hf : Uni 𝓥 f) : Uni 𝓥 (fun qs => charPtrToks (P qs) (f qs)) := by
  refine uni_congr (g := fun qs => charPtrToks ⟨C, fnLoc [], exp⟩ (f qs)) (fun _ _ => rfl) ?_
  simp only [charPtrToks]
  uni

theorem uni_var (n : IdentExpr) : Uni 𝓥 (fun qs => varToks (P qs) n) := by
  cases n with
  | arg i => exact uni_arg i
  | concat ids => exact uni_ident (.concat ids)
  | plain id => exact uni_congr (g := fun _ => varToks ⟨C, fnLoc [], exp⟩ (.plain id)) (fun _ _ => rfl) (uni_const _)

/-- The type for `wchar_t` has no macro parameter in it. -/
theorem fromRust_loc {p : Option RPath} (as bs : List Str) : ∀ {t : RTy} {u : Ty}, Ty.fromRust p t = .ok u →
    u.toks ⟨C, fnLoc as, exp⟩ = u.toks ⟨C, fnLoc bs, exp⟩
  | .ptr m r, t, h => by
    simp only [Ty.fromRust] at h
    split at h
    · rename_i u hu
      cases h
      have := fromRust_loc as bs hu
      cases m <;> simp only [Ty.toks, this, if_true, if_false, Bool.false_eq_true, reduceIte]
    · cases h
  | .unit, t, h | .verbatim _, t, h => by cases h; rfl
  | .path q p, t, h => by
    simp only [Ty.fromRust] at h
    repeat' split at h
    all_goals (cases h; rfl)
  | .other _, t, h => by cases h

theorem wchar_loc (as bs : List Str) : wcharToks ⟨C, fnLoc as, exp⟩ = wcharToks ⟨C, fnLoc bs, exp⟩ := by
  simp only [wcharToks]
  split
  · split
    · rename_i h
      exact fromRust_loc as bs h
    · rfl
  · rfl

theorem string_loc (s : LitString) (b : Bool) (as bs : List Str) : s.toks ⟨C, fnLoc as, exp⟩ b = s.toks ⟨C, fnLoc bs, exp⟩ b := by
  cases s with
  | wide ws => simp only [LitString.toks, wchar_loc as bs]
  | _ => rfl

theorem uni_lit (l : Lit) : Uni 𝓥 (fun qs => l.toks (P qs)) := by
  cases l with
  | string s =>
    refine uni_congr (g := fun _ => (s.toks ⟨C, fnLoc [], exp⟩ false).2) (fun qs _ => ?_) (uni_const _)
    simp only [Lit.toks, string_loc s false qs []]
  | _ => exact uni_const _

theorem uni_stringify (n : IdentExpr) : Uni 𝓥 (fun qs => stringifyInner (P qs) n) := by
  cases n with
  | arg i =>
    have := uni_name (C := C) (m := m) (k := k) (dots := dots) (types := types) i
    refine uni_congr (g := fun qs => prefixToks C.traitPrefix ++ q!"stringify ! ( $" ++ (match qs[i]? with | some n => [.id n] | none => [.bad]) ++ q!")")
      (fun _ _ => rfl) ?_
    uni
  | concat ids => exact uni_congr (g := fun _ => stringifyInner ⟨C, fnLoc [], exp⟩ (.concat ids)) (fun _ _ => rfl) (uni_const _)
  | plain id => exact uni_congr (g := fun _ => stringifyInner ⟨C, fnLoc [], exp⟩ (.plain id)) (fun _ _ => rfl) (uni_const _)

theorem uni_paren {b : Bool} {f : List Str → List RTok} (hf : Uni 𝓥 f) : Uni 𝓥 (fun qs => parenIf b (f qs)) := by
  simp only [parenIf, parenToks]
  uni

theorem uni_readVolatile {f : List Str → List RTok} (hf : Uni 𝓥 f) : Uni 𝓥 (fun qs => readVolatile (P qs) (f qs)) := by
  simp only [readVolatile]
  uni

theorem uni_volatile {f g h : List Str → List RTok} (hf : Uni 𝓥 f) (hg : Uni 𝓥 g) (hh : Uni 𝓥 h) :
    Uni 𝓥 (fun qs => volatileBlock (P qs) (f qs) (g qs) (h qs)) := by
  simp only [volatileBlock]
  uni

theorem uni_step {s : Str} {f : List Str → List RTok} (hf : Uni 𝓥 f) : Uni 𝓥 (fun qs => derefStep s (f qs)) := by
  simp only [derefStep]
  uni

theorem uni_deref {x : Expr} {f : List Str → List RTok} {g : List Str → List (List RTok)} (hf : Uni 𝓥 f) (hg : UniL 𝓥 g) :
    Uni 𝓥 (fun qs => derefToks (P qs) x (f qs) (g qs)) := by
  have h0 := uni_kid0 hg
  have h1 := uni_kid1 hg
  have plain : Uni 𝓥 (fun qs => q!"*" ++ parenIf (decide (x.prec > 2)) (f qs)) := uni_app (uni_const _) (uni_paren hf)
  unfold derefToks
  split
  · exact uni_ite (uni_readVolatile hf) plain
  · exact uni_app (uni_app (uni_app (uni_app (uni_const _) (uni_paren h0)) (uni_const _)) h1) (uni_const _)
  · exact uni_app (uni_app (uni_app (uni_app (uni_const _) (uni_paren h0)) (uni_const _)) h1) (uni_const _)
  · exact uni_app (uni_app (uni_app (uni_const _) (uni_step h0)) h0) (uni_const _)
  · exact uni_app (uni_app (uni_app (uni_const _) (uni_step h0)) h0) (uni_const _)
  · exact uni_app (uni_app (uni_app (uni_app (uni_const _) h0) (uni_const _)) (uni_step h0)) (uni_const _)
  · exact uni_app (uni_app (uni_app (uni_app (uni_const _) h0) (uni_const _)) (uni_step h0)) (uni_const _)
  · exact plain

theorem uni_unary {op : UnOp} {x : Expr} {f : List Str → List RTok} {g : List Str → List (List RTok)} (hf : Uni 𝓥 f) (hg : UniL 𝓥 g) :
    Uni 𝓥 (fun qs => unaryToks (P qs) op x (f qs) (g qs)) := by
  have h0 := uni_kid0 hg
  have hp : ∀ b, Uni 𝓥 (fun qs => parenIf b (f qs)) := fun _ => uni_paren hf
  have hr := uni_readVolatile (exp := exp) h0
  cases op <;> simp only [unaryToks]
  case deref => exact uni_deref hf hg
  case not => exact uni_app (uni_const _) (hp _)
  case comp => exact uni_app (uni_const _) (hp _)
  case plus => exact uni_app (uni_const _) (hp _)
  case minus => exact uni_app (uni_const _) (hp _)
  case addrOf => uni
  all_goals
    refine uni_ite (uni_volatile h0 ?_ ?_) ?_ <;> uni

theorem uni_binary {l r : Expr} {op : BinOp} {f g : List Str → List RTok} {h : List Str → List (List RTok)} (hf : Uni 𝓥 f) (hg : Uni 𝓥 g) (hh : UniL 𝓥 h) :
    Uni 𝓥 (fun qs => binaryToks (P qs) l op r (f qs) (g qs) (h qs)) := by
  have h0 := uni_kid0 hh
  have hr := uni_readVolatile (exp := exp) h0
  simp only [binaryToks]
  refine uni_ite (uni_ite (uni_volatile h0 ?_ (uni_const _)) ?_) (uni_app (uni_app (uni_paren hf) (uni_const _)) (uni_paren hg)) <;> uni

theorem uni_cast {t : Ty} {x : Expr} {f : List Str → List RTok} (hf : Uni 𝓥 f) : Uni 𝓥 (fun qs => castToks (P qs) t x (f qs)) := by
  have ht := uni_ty (C := C) (m := m) (k := k) (dots := dots) (types := types) (exp := exp) t
  have hx : Uni 𝓥 (fun qs => castOperand x (f qs)) := by
    unfold castOperand
    split
    · exact uni_const _
    · exact uni_paren hf
  simp only [castToks]
  uni

theorem uni_callArg {b : Bool} (a : Expr) (f : List Str → List RTok) (hf : Uni 𝓥 f) : Uni 𝓥 (fun qs => callArgToks (P qs) b a (f qs)) := by
  have hi : Uni 𝓥 (fun qs => if b then parenToks (f qs) ++ q!". into ( )" else f qs) := by
    simp only [parenToks]
    uni
  have rest : (∀ qs, argNameToks (P qs) a = []) → (∀ qs, noInto (P qs) a = noInto ⟨C, fnLoc [], exp⟩ a) → Uni 𝓥 (fun qs => callArgToks (P qs) b a (f qs)) := by
    intro h1 h2
    refine uni_congr (g := fun qs => if noInto ⟨C, fnLoc [], exp⟩ a then f qs else if b then parenToks (f qs) ++ q!". into ( )" else f qs) (fun qs _ => ?_)
      (uni_ite hf hi)
    simp only [callArgToks, h1, h2, List.nil_append]
  by_cases hv : ∃ i, a = .var (.arg i)
  · obtain ⟨i, rfl⟩ := hv
    by_cases hk : i < k
    · by_cases hd : dots i
      · refine uni_congr (fun qs hq => ?_) hf
        have := (hq.ellipsis i hk).2 hd
        simp [callArgToks, argNameToks, noInto, fnLoc, this]
      · refine uni_congr (g := fun qs => if !exp then f qs else if b then parenToks (f qs) ++ q!". into ( )" else f qs) (fun qs hq => ?_) (uni_ite hf hi)
        obtain ⟨q, h⟩ := index_lt hq hk
        have hn : q ≠ c!"..." := fun he => hd ((hq.ellipsis i hk).1 (by rw [h, he]))
        simp [callArgToks, argNameToks, noInto, fnLoc, h, hn]
    · refine uni_congr (g := fun qs => [.bad] ++ if !exp then f qs else if b then parenToks (f qs) ++ q!". into ( )" else f qs) (fun qs hq => ?_)
        (uni_app (uni_const _) (uni_ite hf hi))
      simp [callArgToks, argNameToks, noInto, fnLoc, index_ge hq hk]
  · refine rest (fun qs => ?_) fun qs => ?_
    · unfold argNameToks
      split
      · exact absurd ⟨_, rfl⟩ hv
      · rfl
    · unfold noInto
      split
      · rfl
      · rfl
      · exact absurd ⟨_, rfl⟩ hv
      · rfl

theorem uni_call {n : IdentExpr} {as : List Expr} {f : List Str → List (List RTok)} (hf : UniL 𝓥 f) : Uni 𝓥 (fun qs => callToks (P qs) n as (f qs)) := by
  have hn := uni_ident (C := C) (m := m) (k := k) (dots := dots) (types := types) (exp := exp) n
  have hz := uniL_zip (F := fun qs => callArgToks (P qs) (!isOffsetof n as)) (fun x f hf => uni_callArg x f hf) as hf
  simp only [callToks]
  uni

theorem uni_part (e : Expr) (f : List Str → List RTok) (hf : Uni 𝓥 f) : Uni 𝓥 (fun qs => concatPartToks (P qs) e (f qs)) := by
  unfold concatPartToks
  split
  · exact uni_ite (uni_const (fileToks ⟨C, fnLoc [], exp⟩)) hf
  · exact uni_stringify _
  · exact hf

mutual

theorem uni_expr : ∀ e : Expr, Uni 𝓥 (fun qs => e.toks (P qs))
  | .var n => by simp only [Expr.toks]; exact uni_var n
  | .call n as => by
    simp only [Expr.toks]
    exact uni_call (uni_exprs as)
  | .cast ty x => by
    simp only [Expr.toks]
    exact uni_cast (uni_expr x)
  | .lit l => by simp only [Expr.toks]; exact uni_lit l
  | .stringify n => by
    simp only [Expr.toks]
    have := uni_stringify (C := C) (m := m) (k := k) (dots := dots) (types := types) (exp := exp) n
    apply uni_charPtr
    uni
  | .concatStr parts => by
    simp only [Expr.toks]
    have := uniL_zip (F := fun qs => concatPartToks (P qs)) (fun x f hf => uni_part x f hf) parts (uni_exprs parts)
    apply uni_charPtr
    uni
  | .sizeOf ty => by
    simp only [Expr.toks]
    have := uni_ty (C := C) (m := m) (k := k) (dots := dots) (types := types) (exp := exp) ty
    uni
  | .un op x => by
    simp only [Expr.toks]
    exact uni_unary (uni_expr x) (uni_kids x)
  | .bin l op r => by
    simp only [Expr.toks]
    exact uni_binary (uni_expr l) (uni_expr r) (uni_kids l)
  | .ternary c t f => by
    simp only [Expr.toks]
    have h1 := uni_expr c
    have h2 := uni_expr t
    have h3 := uni_expr f
    uni

theorem uni_exprs : ∀ es : List Expr, UniL 𝓥 (fun qs => Expr.toksL (P qs) es)
  | [] => by simp only [Expr.toksL]; exact uniL_nil
  | e :: es => by
    simp only [Expr.toksL]
    exact uniL_cons (uni_expr e) (uni_exprs es)

theorem uni_kids : ∀ e : Expr, UniL 𝓥 (fun qs => Expr.kids (P qs) e)
  | .un _ x => by
    simp only [Expr.kids]
    exact uniL_cons (uni_expr x) uniL_nil
  | .bin l _ r => by
    simp only [Expr.kids]
    exact uniL_cons (uni_expr l) (uniL_cons (uni_expr r) uniL_nil)
  | .var _ => by simp only [Expr.kids]; exact uniL_nil
  | .call _ _ => by simp only [Expr.kids]; exact uniL_nil
  | .cast _ _ => by simp only [Expr.kids]; exact uniL_nil
  | .lit _ => by simp only [Expr.kids]; exact uniL_nil
  | .stringify _ => by simp only [Expr.kids]; exact uniL_nil
  | .concatStr _ => by simp only [Expr.kids]; exact uniL_nil
  | .sizeOf _ => by simp only [Expr.kids]; exact uniL_nil
  | .ternary _ _ _ => by simp only [Expr.kids]; exact uniL_nil

end

theorem uni_asm (a : Asm) : Uni 𝓥 (fun qs => a.toks (P qs)) := by
  unfold Asm.toks
  split
  · exact uni_const _
  · rename_i outs ins _
    have h1 := uniL_map (V := 𝓥) (xs := outs) (F := fun x qs => x.1.toks ++ q!"(" ++ x.2.1.toks ++ q!")" ++ x.2.2.toks (P qs))
      fun x _ => by
        refine uni_app (uni_const _) ?_
        exact uni_expr x.2.2
    have h2 := uniL_map (V := 𝓥) (xs := ins) (F := fun x qs => q!"in (" ++ x.1.toks ++ q!")" ++ x.2.toks (P qs))
      fun x _ => by
        refine uni_app (uni_const _) ?_
        exact uni_expr x.2
    dsimp only
    uni

theorem uni_fnDecl (d : FunctionDecl) : Uni 𝓥 (fun qs => d.toks (P qs)) := by
  have h1 := uniL_map (V := 𝓥) (xs := d.args) (F := fun x qs => x.2.toks (P qs) ++ q!":" ++ x.1.toks (P qs))
    fun x _ => by
      refine uni_app (uni_app ?_ (uni_const _)) ?_
      · exact uni_ident x.2
      · exact uni_ty x.1
  have h2 := uni_ident (C := C) (m := m) (k := k) (dots := dots) (types := types) (exp := exp) d.name
  have h3 := uni_ty (C := C) (m := m) (k := k) (dots := dots) (types := types) (exp := exp) d.retTy
  simp only [FunctionDecl.toks]
  uni

theorem uni_varDecl (d : VarDecl) : Uni 𝓥 (fun qs => d.toks (P qs)) := by
  have h1 := uni_expr (C := C) (m := m) (k := k) (dots := dots) (types := types) (exp := exp) d.rhs
  have h2 := uni_ident (C := C) (m := m) (k := k) (dots := dots) (types := types) (exp := exp) d.name
  have h3 := uni_ty (C := C) (m := m) (k := k) (dots := dots) (types := types) (exp := exp) d.ty
  simp only [VarDecl.toks]
  uni

mutual

theorem uni_stmt : ∀ s : Stmt, Uni 𝓥 (fun qs => s.toks (P qs))
  | .asm a => by
    simp only [Stmt.toks]
    exact uni_app (uni_asm a) (uni_const _)
  | .expr e => by
    simp only [Stmt.toks]
    exact uni_app (uni_expr e) (uni_const _)
  | .fnDecl d => by simp only [Stmt.toks]; exact uni_fnDecl d
  | .varDecl d => by
    simp only [Stmt.toks]
    exact uni_app (uni_varDecl d) (uni_const _)
  | .block ss => by
    simp only [Stmt.toks]
    have := uni_stmts ss
    uni
  | .ite c t f => by
    have h1 := uni_expr (C := C) (m := m) (k := k) (dots := dots) (types := types) (exp := exp) c
    have h2 := uni_stmts t
    have h3 := uni_stmts f
    cases f with
    | nil =>
      simp only [Stmt.toks]
      uni
    | cons x xs =>
      simp only [Stmt.toks]
      uni
  | .doWhile b c => by
    simp only [Stmt.toks]
    have h1 := uni_expr (C := C) (m := m) (k := k) (dots := dots) (types := types) (exp := exp) c
    have h2 := uni_stmts b
    uni

theorem uni_stmts : ∀ ss : List Stmt, UniL 𝓥 (fun qs => Stmt.toksL (P qs) ss)
  | [] => by simp only [Stmt.toksL]; exact uniL_nil
  | s :: ss => by
    simp only [Stmt.toksL]
    exact uniL_cons (uni_stmt s) (uni_stmts ss)

end

theorem uni_body (b : MacroBody) : Uni 𝓥 (fun qs => b.toks (P qs)) := by
  cases b with
  | expr e => exact uni_expr e
  | stmt s => exact uni_stmt s

/-! ## Generating -/

theorem finishStep_loc (as bs : List Str) : finishStep C (fnLoc as) = finishStep C (fnLoc bs) := by
  funext rec e st
  cases e <;> rfl

theorem finish_loc (as bs : List Str) (n : Nat) : Expr.finish C (fnLoc as) n = Expr.finish C (fnLoc bs) n := by
  induction n with
  | zero => rfl
  | succ n ih => simp only [Expr.finish, ih, finishStep_loc as bs]

theorem argTypes_map : ∀ {as bs : List Str}, as.map (C.macroArgTy m) = bs.map (C.macroArgTy m) → argTypes C m as = argTypes C m bs
  | [], [], _ => rfl
  | a :: as, b :: bs, h => by
    simp only [List.map_cons, List.cons.injEq] at h
    simp only [argTypes, h.1, argTypes_map h.2]
  | [], _ :: _, h => by simp at h
  | _ :: _, [], h => by simp at h

theorem argTypes_loc {as bs : List Str} (ha : 𝓥 as) (hb : 𝓥 bs) : argTypes C m as = argTypes C m bs := by
  refine argTypes_map (List.ext_getElem? fun i => ?_)
  rw [List.getElem?_map, List.getElem?_map]
  by_cases hi : i < k
  · obtain ⟨p, hp⟩ := index_lt ha hi
    obtain ⟨q, hq⟩ := index_lt hb hi
    simp only [hp, hq, Option.map_some, ha.declared i p hp, hb.declared i q hq]
  · rw [index_ge ha hi, index_ge hb hi]

theorem variadic_loc {as bs : List Str} (ha : 𝓥 as) (hb : 𝓥 bs) : namesVariadic as = namesVariadic bs := by
  unfold namesVariadic
  rw [List.getLast?_eq_getElem?, List.getLast?_eq_getElem?, ha.length, hb.length]
  by_cases hi : k - 1 < k
  · exact decide_eq_decide.2 ((ha.ellipsis _ hi).trans (hb.ellipsis _ hi).symm)
  · rw [index_ge ha hi, index_ge hb hi]

theorem ok_loc {as bs : List Str} (ha : 𝓥 as) (hb : 𝓥 bs) (T : List HTok) : toksOk C.env (fillText as T) = toksOk C.env (fillText bs T) := by
  unfold toksOk fillText
  rw [List.all_map, List.all_map]
  congr 1
  funext t
  cases t with
  | tok t => rfl
  | param i =>
    simp only [Function.comp, HTok.fill, RTok.ok, List.getD_eq_getElem?_getD]
    by_cases hi : i < k
    · by_cases hd : dots i
      · rw [(ha.ellipsis i hi).2 hd, (hb.ellipsis i hi).2 hd]
      · obtain ⟨p, hp⟩ := index_lt ha hi
        obtain ⟨q, hq⟩ := index_lt hb hi
        simp only [hp, hq, Option.getD_some, isIdent_iff.2 (ha.ident i p hp hd), isIdent_iff.2 (hb.ident i q hq hd)]
    · rw [index_ge ha hi, index_ge hb hi]

theorem drop_lt {qs : List Str} (h : 𝓥 qs) {j : Nat} (hj : j < k) : ∃ q, qs[j]? = some q ∧ qs.drop j = q :: qs.drop (j + 1) := by
  have : j < qs.length := by rw [h.length]; exact hj
  exact ⟨qs[j], List.getElem?_eq_getElem this, List.drop_eq_getElem_cons this⟩

theorem drop_ge {qs : List Str} (h : 𝓥 qs) {j : Nat} (hj : ¬ j < k) : qs.drop j = [] := by
  rw [List.drop_eq_nil_iff, h.length]
  omega

theorem uniL_congr {V : List Str → Prop} {f g : List Str → List (List RTok)} (h : ∀ qs, V qs → f qs = g qs) (hg : UniL V g) : UniL V f := by
  obtain ⟨b, hb⟩ := hg
  exact ⟨b, fun qs hq => by rw [h qs hq, hb qs hq]⟩

theorem uni_macroParams : ∀ (ts : List ArgTy) (j : Nat), UniL 𝓥 (fun qs => macroParams (qs.drop j) ts)
  | [], j => uniL_congr (g := fun _ => []) (fun qs _ => by cases qs.drop j <;> rfl) uniL_nil
  | t :: ts, j => by
    by_cases hj : j < k
    · have ih := uni_macroParams ts (j + 1)
      have hn := uni_name (C := C) (m := m) (k := k) (dots := dots) (types := types) j
      by_cases hd : dots j
      · refine uniL_congr (g := fun qs => q!"$ ( $ __VA_ARGS__ : expr ) , *" :: macroParams (qs.drop (j + 1)) ts) (fun qs hq => ?_) (uniL_cons (uni_const _) ih)
        obtain ⟨q, h, e⟩ := drop_lt hq hj
        have := (hq.ellipsis j hj).2 hd
        rw [h] at this
        cases this
        rw [e]
        simp only [macroParams, reduceIte]
      · refine uniL_congr (g := fun qs => (q!"$" ++ (match qs[j]? with | some n => [.id n] | none => [.bad]) ++ q!":" ++ [.id t.fragment]) :: macroParams (qs.drop (j + 1)) ts)
          (fun qs hq => ?_) (uniL_cons (by uni) ih)
        obtain ⟨q, h, e⟩ := drop_lt hq hj
        have hn : q ≠ c!"..." := fun he => hd ((hq.ellipsis j hj).1 (by rw [h, he]))
        rw [e]
        simp only [macroParams, if_neg hn, h]
    · exact uniL_congr (g := fun _ => []) (fun qs hq => by rw [drop_ge hq hj]; rfl) uniL_nil

theorem uni_fnParams : ∀ (ts : List ArgTy) (j : Nat), UniL 𝓥 (fun qs => fnParams (P qs) (qs.drop j) ts)
  | [], j => uniL_congr (g := fun _ => []) (fun qs _ => by cases qs.drop j <;> simp only [fnParams]) uniL_nil
  | t :: ts, j => by
    by_cases hj : j < k
    · have ih := uni_fnParams ts (j + 1)
      have hn := uni_name (C := C) (m := m) (k := k) (dots := dots) (types := types) j
      by_cases ht : ∃ u, t = .known u
      · obtain ⟨u, rfl⟩ := ht
        have hu := uni_ty (C := C) (m := m) (k := k) (dots := dots) (types := types) (exp := exp) u
        refine uniL_congr (g := fun qs => ((match qs[j]? with | some n => [.id n] | none => [.bad]) ++ q!":" ++ u.toks (P qs)) :: fnParams (P qs) (qs.drop (j + 1)) ts)
          (fun qs hq => ?_) (uniL_cons (by uni) ih)
        obtain ⟨q, h, e⟩ := drop_lt hq hj
        rw [e]
        simp only [fnParams, h]
      · refine uniL_congr (g := fun qs => [.bad] :: fnParams (P qs) (qs.drop (j + 1)) ts) (fun qs hq => ?_) (uniL_cons (uni_const _) ih)
        obtain ⟨q, h, e⟩ := drop_lt hq hj
        rw [e]
        cases t with
        | known u => exact absurd ⟨u, rfl⟩ ht
        | _ => simp only [fnParams]
    · exact uniL_congr (g := fun _ => []) (fun qs hq => by rw [drop_ge hq hj]; simp only [fnParams]) uniL_nil

theorem uni_gen (T : GenTemplate) : Uni 𝓥 (fun qs => (T.fill qs).toks) := by
  cases T with
  | «macro» name params body =>
    have h1 : UniL 𝓥 (fun qs => params.map (fillText qs)) := ⟨params, fun _ _ => rfl⟩
    have h2 : Uni 𝓥 (fun qs => fillText qs body) := ⟨body, fun _ _ => rfl⟩
    simp only [GenTemplate.fill, GenFn.toks]
    uni
  | fn name args ret body =>
    have h1 : UniL 𝓥 (fun qs => (args.map (fillText qs)).map (q!"mut" ++ ·)) := by
      simp only [List.map_map]
      refine uniL_map (xs := args) (F := fun x qs => q!"mut" ++ fillText qs x) fun x _ => uni_app (uni_const _) ⟨x, fun _ _ => rfl⟩
    have h2 : Uni 𝓥 (fun qs => fillText qs body) := ⟨body, fun _ _ => rfl⟩
    cases ret with
    | none =>
      simp only [GenTemplate.fill, GenFn.toks, Option.map_none]
      uni
    | some t =>
      have h3 : Uni 𝓥 (fun qs => fillText qs t) := ⟨t, fun _ _ => rfl⟩
      simp only [GenTemplate.fill, GenFn.toks, Option.map_some]
      uni

theorem template (n : Nat) (body : MacroBody) {ps : List Str} (hp : 𝓥 ps) :
    ∃ T : CgRes GenTemplate, ∀ qs, 𝓥 qs → FnMacro.generate n C ⟨m, qs, body⟩ = T.map (·.fill qs) := by
  cases ht : argTypes C m ps with
  | error e => exact ⟨.error e, fun qs hq => by simp only [FnMacro.generate, argTypes_loc hq hp, ht]; rfl⟩
  | ok tys =>
    match hb : body.finish C (Expr.finish C (fnLoc ps) n) ⟨tys, false⟩ with
    | ⟨b, st, .error e⟩ =>
      exact ⟨.error e, fun qs hq => by simp only [FnMacro.generate, argTypes_loc hq hp, ht, finish_loc qs ps, hb]; rfl⟩
    | ⟨b, st, .ok ret⟩ =>
      have hexp : ∃ exp, exp = (st.exportAsMacro || (C.function m).isSome || namesVariadic ps || !st.argTypes.all ArgTy.isKnown || ret.isNone) := ⟨_, rfl⟩
      obtain ⟨exp, hexp⟩ := hexp
      have hT : ∃ T : GenTemplate, ∀ qs, 𝓥 qs → (if exp then GenFn.macro m (macroParams qs st.argTypes) (b.toks ⟨C, fnLoc qs, exp⟩)
          else .fn m (fnParams ⟨C, fnLoc qs, exp⟩ qs st.argTypes) (retToks ⟨C, fnLoc qs, exp⟩ ret) (b.toks ⟨C, fnLoc qs, exp⟩)) = T.fill qs := by
        obtain ⟨B, hB⟩ := uni_body (C := C) (m := m) (k := k) (dots := dots) (types := types) (exp := exp) b
        by_cases he : exp = true
        · obtain ⟨M, hM⟩ := uni_macroParams (C := C) (m := m) (k := k) (dots := dots) (types := types) st.argTypes 0
          exact ⟨.macro m M B, fun qs hq => by
            have h1 := hM qs hq
            have h2 := hB qs hq
            simp only [List.drop_zero] at h1 h2
            rw [if_pos he, h1, h2]; rfl⟩
        · obtain ⟨M, hM⟩ := uni_fnParams (C := C) (m := m) (k := k) (dots := dots) (types := types) (exp := exp) st.argTypes 0
          have hR : ∃ R : Option (List HTok), ∀ qs, 𝓥 qs → retToks ⟨C, fnLoc qs, exp⟩ ret = R.map (fillText qs) := by
            cases ret with
            | none => exact ⟨none, fun _ _ => rfl⟩
            | some t =>
              obtain ⟨R, hR⟩ := uni_ty (C := C) (m := m) (k := k) (dots := dots) (types := types) (exp := exp) t
              by_cases hv : t.isVoid = true
              · exact ⟨none, fun _ _ => by simp only [retToks, if_pos hv]; rfl⟩
              · exact ⟨some R, fun qs hq => by
                  have := hR qs hq
                  dsimp only at this
                  simp only [retToks, if_neg hv, this]; rfl⟩
          obtain ⟨R, hR⟩ := hR
          exact ⟨.fn m M R B, fun qs hq => by
            have h1 := hM qs hq
            have h2 := hB qs hq
            simp only [List.drop_zero] at h1 h2
            rw [if_neg he, h1, h2, hR qs hq]; rfl⟩
      obtain ⟨T, hT⟩ := hT
      obtain ⟨O, hO⟩ := uni_gen (C := C) (m := m) (k := k) (dots := dots) (types := types) T
      refine ⟨if toksOk C.env (fillText ps O) then .ok T else .error .panic, fun qs hq => ?_⟩
      have ho := hO qs hq
      dsimp only at ho
      simp only [FnMacro.generate, argTypes_loc hq hp, ht, finish_loc qs ps, hb, variadic_loc hq hp, ← hexp, hT qs hq, ho, ok_loc hq hp O]
      split <;> rfl

end

end CMacro
