import Verif.Props.Export
import Verif.Proofs.Text

/-!
# Properties C32 and C56: string constants
-/

namespace CMacro

/-! ## C32 -/

/-- The UTF-16 code units of a text. -/
inductive Spec.Utf16 : List Nat → Str → Prop
  | nil : Utf16 [] []
  | unit {c : Char} {us s} : c.toNat < 0x10000 → Utf16 us s → Utf16 (c.toNat :: us) (c :: s)
  | pair {c : Char} {hi lo : Nat} {us s} : 0xD800 ≤ hi → hi < 0xDC00 → 0xDC00 ≤ lo → lo < 0xE000 →
      c.toNat = 0x10000 + (hi - 0xD800) * 0x400 + (lo - 0xDC00) → Utf16 us s → Utf16 (hi :: lo :: us) (c :: s)

/-- The units of a string literal. -/
inductive Spec.Units : LitString → List Nat → Prop
  | ordinary {bs} : Units (.ordinary bs) (bs.map UInt8.toNat)
  | utf8 {s} : Units (.utf8 s) ((s.flatMap String.utf8EncodeChar).map UInt8.toNat)
  | utf16 {s us} : Spec.Utf16 us s → Units (.utf16 s) us
  | utf32 {s} : Units (.utf32 s) (s.map Char.toNat)
  | wide {ws} : Units (.wide ws) ws

/-- The type of the units of a string literal; the one of wide strings depends on the platform. -/
inductive Spec.UnitTy : LitString → List RTok → Prop
  | ordinary {bs} : UnitTy (.ordinary bs) q!"u8"
  | utf8 {s} : UnitTy (.utf8 s) q!"u8"
  | utf16 {s} : UnitTy (.utf16 s) q!"u16"
  | utf32 {s} : UnitTy (.utf32 s) q!"u32"
  | wide {ws t} : UnitTy (.wide ws) t

/-- The numbers in a token. -/
def Spec.tokNums : RTok → List Nat
  | .bytes bs => bs.map UInt8.toNat
  | .int v _ => [v.toNat]
  | _ => []

/-- The numbers in code, in order. -/
def Spec.nums (ts : List RTok) : List Nat := ts.flatMap Spec.tokNums

/-- The value and the type of the constant for a string literal with the units `us`: a reference to
an array of these units and a zero, with the right length, or a `CStr` made of such an array in which
only the last unit is zero. -/
inductive Spec.StringConst (s : LitString) (us : List Nat) : List RTok → List RTok → Prop
  | array {val pre elem} : Spec.nums val = us ++ [0] → (∀ v sfx, .int v sfx ∈ val → sfx = [] ∨ elem = [.id sfx]) →
      (pre = q!"&" ∨ pre = q!"& 'static") → Spec.UnitTy s elem →
      StringConst s us val (pre ++ q!"[" ++ elem ++ q!";" ++ [.int (us.length + 1 : Nat) []] ++ q!"]")
  | cstr {bs cstr} : bs.map UInt8.toNat = us ++ [0] → 0 ∉ us →
      StringConst s us (q!"{ # [ allow ( unsafe_code ) ] unsafe {" ++ cstr ++ q!":: from_bytes_with_nul_unchecked (" ++ [.bytes bs] ++ q!") } }")
        (q!"&" ++ cstr)

theorem nums_append (a b : List RTok) : Spec.nums (a ++ b) = Spec.nums a ++ Spec.nums b := by simp [Spec.nums]

/-- Tokens without numbers. -/
def NumFree (ts : List RTok) : Prop := ∀ t ∈ ts, (∀ v s, t ≠ .int v s) ∧ ∀ bs, t ≠ .bytes bs

theorem NumFree.nums {ts : List RTok} (h : NumFree ts) : Spec.nums ts = [] := by
  unfold Spec.nums
  refine List.flatMap_eq_nil_iff.2 fun t ht => ?_
  have := h t ht
  cases t <;> simp_all [Spec.tokNums]

theorem NumFree.append {a b : List RTok} (ha : NumFree a) (hb : NumFree b) : NumFree (a ++ b) := by
  intro t ht
  rcases List.mem_append.1 ht with h | h
  · exact ha t h
  · exact hb t h

theorem NumFree.sep {sep : List RTok} (hs : NumFree sep) : ∀ {xs : List (List RTok)}, (∀ x ∈ xs, NumFree x) → NumFree (sepToks sep xs) := by
  intro xs h t ht
  rcases sepToks_mem ht with h' | ⟨x, hx, h'⟩
  · exact hs t h'
  · exact h x hx t h'

theorem NumFree.ids {segs : List Str} : NumFree (sepToks q!"::" (segs.map fun s => [.id s])) := by
  refine .sep (by intro t ht; simp at ht; rcases ht with rfl | rfl <;> simp) fun x hx => ?_
  obtain ⟨s, _, rfl⟩ := List.mem_map.1 hx
  intro t ht; simp at ht; subst ht; simp

theorem RPath.noNum (p : RPath) : NumFree p.toks := by
  unfold RPath.toks
  refine .append ?_ .ids
  split <;> intro t ht <;> simp at ht
  rcases ht with rfl | rfl <;> simp

theorem RTy.noNum : ∀ r : RTy, NumFree r.toks
  | .ptr m e => by
    unfold RTy.toks
    refine .append (.append ?_ ?_) (RTy.noNum e)
    · intro t ht; simp at ht; subst ht; simp
    · split <;> intro t ht <;> simp at ht <;> subst ht <;> simp
  | .unit => by intro t ht; simp [RTy.toks] at ht; rcases ht with rfl | rfl <;> simp
  | .verbatim s => by intro t ht; simp [RTy.toks] at ht; subst ht; simp
  | .path (.rich _ _) p => by intro t ht; simp [RTy.toks] at ht; subst ht; simp
  | .path .plain p => p.noNum
  | .other s => by intro t ht; simp [RTy.toks] at ht; subst ht; simp

theorem builtIn_noNum (C : Ctx) (b : BuiltInType) : NumFree (b.toRust C).toks := RTy.noNum _

theorem fromRust_noNum {P : PCtx} {ffi : Option RPath} : ∀ {r : RTy} {t : Ty}, Ty.fromRust ffi r = .ok t → NumFree (t.toks P)
  | .ptr m e, t, h => by
    unfold Ty.fromRust at h
    split at h
    · have ih := fromRust_noNum (P := P) (by assumption)
      cases h
      cases m
      · simp only [Bool.false_eq_true, if_false, Ty.toks, Qualifier.isConst, if_true]
        refine .append ?_ ih
        intro t ht; simp at ht; rcases ht with rfl | rfl <;> simp
      · simp only [if_true, Ty.toks]
        refine .append ?_ ih
        intro t ht; simp at ht; rcases ht with rfl | rfl <;> simp
    · cases h
  | .unit, t, h => by cases h; exact builtIn_noNum _ _
  | .verbatim s, t, h => by cases h; intro t ht; simp [Ty.toks, IdentExpr.toks] at ht; subst ht; simp
  | .path q p, t, h => by
    unfold Ty.fromRust at h
    split at h
    · cases h; exact builtIn_noNum _ _
    · split at h <;> cases h
      · intro t ht; simp [Ty.toks, IdentExpr.toks] at ht; subst ht; simp
      · exact RPath.noNum ⟨_, _⟩
  | .other s, t, h => by cases h

theorem wcharToks_noNum (P : PCtx) : NumFree (wcharToks P) := by
  unfold wcharToks
  split
  · split
    · exact fromRust_noNum (by assumption)
    · intro t ht; simp at ht; subst ht; simp
  · intro t ht; simp at ht; subst ht; simp

theorem nums_sep {xs : List (List RTok)} : Spec.nums (sepToks q!"," xs) = xs.flatMap Spec.nums := by
  match xs with
  | [] => rfl
  | [x] => simp [sepToks]
  | x :: y :: xs =>
    have := nums_sep (xs := y :: xs)
    simp only [sepToks, nums_append, this, List.flatMap_cons]
    simp [Spec.nums, Spec.tokNums]

theorem nums_array (xs : List (List RTok)) : Spec.nums (arrayToks xs) = xs.flatMap Spec.nums := by
  unfold arrayToks
  rw [nums_append, nums_append, nums_sep]
  simp [Spec.nums, Spec.tokNums]

theorem nums_array_ints (ws : List Nat) (sfx : Str) :
    Spec.nums (arrayToks (ws.map fun (w : Nat) => [RTok.int w sfx])) = ws := by
  rw [nums_array]
  induction ws with
  | nil => rfl
  | cons w ws ih => simp [ih]; simp [Spec.nums, Spec.tokNums]

theorem nums_array_wide {wty : List RTok} (h : NumFree wty) (ws : List Nat) :
    Spec.nums (arrayToks (ws.map fun (w : Nat) => [RTok.int w []] ++ q!"as" ++ wty)) = ws := by
  rw [nums_array]
  induction ws with
  | nil => rfl
  | cons w ws ih =>
    rw [List.map_cons, List.flatMap_cons, ih, nums_append, nums_append, h.nums]
    simp [Spec.nums, Spec.tokNums]

theorem array_int {xs : List (List RTok)} {v : Int} {sfx : Str} (h : .int v sfx ∈ arrayToks xs) : ∃ x ∈ xs, .int v sfx ∈ x := by
  unfold arrayToks at h
  simp only [List.mem_append] at h
  rcases h with (h | h) | h
  · simp at h
  · rcases sepToks_mem h with h | h
    · simp at h
    · exact h
  · simp at h

theorem array_suffix {ws : List Nat} {v : Int} {sfx sfx' : Str} (h : .int v sfx' ∈ arrayToks (ws.map fun (w : Nat) => [RTok.int w sfx])) :
    sfx' = sfx := by
  obtain ⟨x, hx, h⟩ := array_int h
  obtain ⟨w, _, rfl⟩ := List.mem_map.1 hx
  simp at h
  exact h.2

theorem array_suffix_wide {wty : List RTok} (hw : NumFree wty) {ws : List Nat} {v : Int} {sfx : Str}
    (h : .int v sfx ∈ arrayToks (ws.map fun (w : Nat) => [RTok.int w []] ++ q!"as" ++ wty)) : sfx = [] := by
  obtain ⟨x, hx, h⟩ := array_int h
  obtain ⟨w, _, rfl⟩ := List.mem_map.1 hx
  simp at h
  rcases h with h | h
  · exact h.2
  · exact absurd rfl ((hw _ h).1 _ _)

/-- The UTF-16 units without the terminating zero. -/
def utf16Units (s : Str) : List Nat := s.flatMap fun c =>
  if c.toNat < 65536 then [c.toNat]
  else [55296 + (c.toNat - 65536) / 1024, 56320 + (c.toNat - 65536) % 1024]

theorem utf16Units_spec : ∀ s : Str, Spec.Utf16 (utf16Units s) s
  | [] => .nil
  | c :: s => by
    have ih := utf16Units_spec s
    unfold utf16Units at ih ⊢
    rw [List.flatMap_cons]
    split
    · exact .unit (by assumption) ih
    · have hv : c.toNat < 0x110000 := by
        have := c.valid
        simp only [UInt32.isValidChar, Nat.isValidChar] at this
        have : c.toNat = c.val.toNat := rfl
        omega
      refine .pair ?_ ?_ ?_ ?_ ?_ ih <;> omega

theorem utf8EncStr_eq (s : Str) : utf8EncStr s = s.flatMap String.utf8EncodeChar := by
  unfold utf8EncStr
  congr 1
  funext c
  exact utf8Enc_eq c

theorem toks_array (P : PCtx) (s : LitString) :
    ∃ us, Spec.Units s us ∧ Spec.StringConst s us (s.toks P true).2 (s.toks P true).1 := by
  cases s with
  | ordinary bs =>
    refine ⟨_, .ordinary, ?_⟩
    unfold LitString.toks
    dsimp only
    rw [if_pos rfl]
    split
    · rename_i h
      refine .cstr (by simp) ?_
      simp only [Bool.and_eq_true, Bool.not_eq_true', List.contains_eq_mem, decide_eq_false_iff_not] at h
      intro hm
      obtain ⟨b, hb, h0⟩ := List.mem_map.1 hm
      have : b = 0 := UInt8.toNat_inj.1 h0
      exact h.2 (this ▸ hb)
    · have : staticRef P.L (q!"[ u8 ;" ++ [.int (bs ++ [0]).length []] ++ q!"]")
        = (if P.L.elision then q!"&" else q!"& 'static") ++ q!"[" ++ q!"u8" ++ q!";" ++ [.int ((bs.map UInt8.toNat).length + 1 : Nat) []] ++ q!"]" := by
        unfold staticRef; split <;> simp
      simp only [this]
      refine .array (by simp [Spec.nums, Spec.tokNums]) (by simp) (by split <;> simp) .ordinary
  | utf8 s =>
    refine ⟨_, .utf8, ?_⟩
    unfold LitString.toks
    dsimp only
    rw [if_pos rfl, utf8EncStr_eq]
    have : ∀ n : Nat, arrayTy q!"u8" n = q!"&" ++ q!"[" ++ q!"u8" ++ q!";" ++ [.int n []] ++ q!"]" := fun n => by simp [arrayTy]
    simp only [this]
    have hl : (List.flatMap String.utf8EncodeChar s ++ [0]).length = ((List.flatMap String.utf8EncodeChar s).map UInt8.toNat).length + 1 := by simp
    rw [hl]
    exact .array (by simp [Spec.nums, Spec.tokNums]) (by simp) (.inl rfl) .utf8
  | utf16 s =>
    refine ⟨_, .utf16 (utf16Units_spec s), ?_⟩
    unfold LitString.toks
    dsimp only
    rw [if_pos rfl]
    have : ∀ n : Nat, arrayTy q!"u16" n = q!"&" ++ q!"[" ++ q!"u16" ++ q!";" ++ [.int n []] ++ q!"]" := fun n => by simp [arrayTy]
    have hw : utf16Words s = utf16Units s ++ [0] := rfl
    simp only [this, hw]
    have hl : (utf16Units s ++ [0]).length = (utf16Units s).length + 1 := by simp
    rw [hl]
    exact .array (nums_array_ints _ _) (fun v sfx h => .inr (by rw [array_suffix h])) (.inl rfl) .utf16
  | utf32 s =>
    refine ⟨_, .utf32, ?_⟩
    unfold LitString.toks
    dsimp only
    rw [if_pos rfl]
    have : ∀ n : Nat, arrayTy q!"u32" n = q!"&" ++ q!"[" ++ q!"u32" ++ q!";" ++ [.int n []] ++ q!"]" := fun n => by simp [arrayTy]
    have hl : (s.map Char.toNat ++ [0]).length = (s.map Char.toNat).length + 1 := by simp
    rw [hl, this]
    exact .array (nums_array_ints _ _) (fun v sfx h => .inr (by rw [array_suffix h])) (.inl rfl) .utf32
  | wide ws =>
    refine ⟨_, .wide, ?_⟩
    unfold LitString.toks
    dsimp only
    rw [if_pos rfl]
    have : ∀ n : Nat, arrayTy (wcharToks P) n = q!"&" ++ q!"[" ++ wcharToks P ++ q!";" ++ [.int n []] ++ q!"]" := fun n => by simp [arrayTy]
    have hl : (ws ++ [0]).length = ws.length + 1 := by simp
    rw [hl, this]
    exact .array (nums_array_wide (wcharToks_noNum P) _) (fun v sfx h => .inl (array_suffix_wide (wcharToks_noNum P) h)) (.inl rfl) .wide

theorem litString_ne (C : Ctx) (s : LitString) (st : LState) : (Lit.string s).finish C st ≠ .error .diverge := by
  cases s <;> simp only [Lit.finish, LitString.finish] <;> try simp
  have := Ty.finish_ne C wcharTy st
  unfold finishWchar
  rcases h : wcharTy.finish C st with ⟨t, st', e | t'⟩
  · rw [h] at this
    simp only [ne_eq] at this ⊢
    intro hc
    cases hc
    exact this rfl
  · simp

theorem ev_string {C : Ctx} {L : Loc} (s : LitString) (st : LState) :
    Ev C L (.lit (.string s)) st ⟨.lit (.string s), st, (Lit.string s).finish C st⟩ :=
  .step (litString_ne C s st) 0 fun _ _ => rfl

/-- **C32**: a string constant consists of the units of the literal and one terminating zero, in an
array of that length; a `CStr` is made only of bytes without another zero. -/
theorem C32_string_constants (C : Ctx) (name : Str) (s : LitString) (val : List RTok) (ty : Option (List RTok))
    (h : VarMacro.Generates C ⟨name, .expr (.lit (.string s))⟩ (.ok (val, ty))) :
    ∃ us t, ty = some t ∧ Spec.Units s us ∧ Spec.StringConst s us val t := by
  have := (varGenerates (name := name) (ev_string (C := C) (L := varLoc C) s .init)).unique h
  generalize (Lit.string s).finish C .init = R at this
  rcases R with e | t
  · cases this
  · unfold varOut at this
    dsimp only at this
    split at this
    · cases this
    · split at this
      · cases this
      · cases this
        obtain ⟨us, hu, hs⟩ := toks_array ⟨C, varLoc C, LState.init.exportAsMacro⟩ s
        exact ⟨us, _, rfl, hu, hs⟩

/-- `#define M "ab"` is a `CStr`; `#define M "a\0b"` is not. -/
example : VarMacro.generate 3 (Ctx.unit asciiEnv) ⟨c!"M", .expr (.lit (.string (.ordinary [97, 98])))⟩
      = .ok (q!"{ # [ allow ( unsafe_code ) ] unsafe { CStr :: from_bytes_with_nul_unchecked (" ++ [.bytes [97, 98, 0]] ++ q!") } }",
        some q!"& CStr") ∧
    VarMacro.generate 3 (Ctx.unit asciiEnv) ⟨c!"M", .expr (.lit (.string (.ordinary [97, 0, 98])))⟩
      = .ok ([.bytes [97, 0, 98, 0]], some (q!"& [ u8 ;" ++ [.int 4 []] ++ q!"]")) := by
  decide +kernel

/-- `#define M u"😀"` -/
example : VarMacro.generate 3 (Ctx.unit asciiEnv) ⟨c!"M", .expr (.lit (.string (.utf16 [Char.ofNat 0x1F600])))⟩
      = .ok (q!"& [" ++ [.int 0xD83D c!"u16"] ++ q!"," ++ [.int 0xDE00 c!"u16"] ++ q!"," ++ [.int 0 c!"u16"] ++ q!"]",
        some (q!"& [ u16 ;" ++ [.int 3 []] ++ q!"]")) ∧
    Spec.Units (.utf16 [Char.ofNat 0x1F600]) [0xD83D, 0xDE00] :=
  ⟨by decide +kernel, .utf16 (.pair (by decide) (by decide) (by decide) (by decide) (by decide +kernel) .nil)⟩

/-- The code of a generated function or macro. -/
def Spec.code : GenFn → List RTok
  | .macro _ _ b => b
  | .fn _ _ _ b => b

/-- The code for a string literal in a function: a block with a constant array, whose length comes
first, with the units and a zero, and a pointer to its first element. -/
structure Spec.StringPtr (us : List Nat) (code : List RTok) : Prop where
  nums : Spec.nums code = (us.length + 1) :: us ++ [0]
  ptr : ∃ name pre post, code = q!"{ const" ++ [.id name] ++ pre ++ q!";" ++ [.id name] ++ q!". as_ptr ( )" ++ post ∧
    (post = q!"}" ∨ ∃ t, NumFree t ∧ post = q!"as * const" ++ t ++ q!"}")

theorem prefixToks_noNum (p : Option RPath) : NumFree (prefixToks p) := by
  cases p with
  | none => intro t ht; cases ht
  | some p =>
    refine .append p.noNum ?_
    intro t ht; simp at ht; subst ht; simp

theorem StringPtr_of {us : List Nat} {name : Str} {ty val : List RTok} (ht : Spec.nums ty = [us.length + 1])
    (hv : Spec.nums val = us ++ [0]) : Spec.StringPtr us (constPtrToks name ty val) := by
  refine ⟨?_, name, q!":" ++ ty ++ q!"=" ++ val, q!"}", by simp [constPtrToks], .inl rfl⟩
  unfold constPtrToks
  simp only [nums_append, ht, hv]
  simp [Spec.nums, Spec.tokNums]

theorem nums_arrayTy {t : List RTok} (h : NumFree t) (n : Nat) : Spec.nums (arrayTy t n) = [n] := by
  unfold arrayTy
  simp only [nums_append, h.nums]
  simp [Spec.nums, Spec.tokNums]

theorem toks_ptr (P : PCtx) (s : LitString) : ∃ us, Spec.Units s us ∧ Spec.StringPtr us (s.toks P false).2 := by
  have hid : ∀ s, NumFree [RTok.id s] := by intro s t ht; simp at ht; subst ht; simp
  cases s with
  | ordinary bs =>
    refine ⟨_, .ordinary, ?_⟩
    unfold LitString.toks
    dsimp only
    rw [if_neg (by simp)]
    have hc : NumFree (prefixToks P.C.ffiPrefix ++ q!"c_char") := (prefixToks_noNum _).append (hid _)
    refine ⟨?_, c!"BYTES", q!":" ++ staticRef P.L (q!"[ u8 ;" ++ [.int (bs ++ [0]).length []] ++ q!"]") ++ q!"=" ++ [.bytes (bs ++ [0])],
      q!"as * const" ++ (prefixToks P.C.ffiPrefix ++ q!"c_char") ++ q!"}", by simp, .inr ⟨_, hc, rfl⟩⟩
    have : Spec.nums (staticRef P.L (q!"[ u8 ;" ++ [.int (bs ++ [0]).length []] ++ q!"]")) = [bs.length + 1] := by
      unfold staticRef; split <;> simp [Spec.nums, Spec.tokNums] <;> omega
    simp only [nums_append, this, (prefixToks_noNum _).nums]
    simp [Spec.nums, Spec.tokNums]
  | utf8 s =>
    refine ⟨_, .utf8, ?_⟩
    unfold LitString.toks
    dsimp only
    rw [if_neg (by simp), utf8EncStr_eq]
    exact StringPtr_of (by rw [nums_arrayTy (hid _)]; simp) (by simp [Spec.nums, Spec.tokNums])
  | utf16 s =>
    refine ⟨_, .utf16 (utf16Units_spec s), ?_⟩
    unfold LitString.toks
    dsimp only
    rw [if_neg (by simp)]
    have hw : utf16Words s = utf16Units s ++ [0] := rfl
    exact StringPtr_of (by rw [nums_arrayTy (hid _), hw]; simp) (by rw [nums_array_ints, hw])
  | utf32 s =>
    refine ⟨_, .utf32, ?_⟩
    unfold LitString.toks
    dsimp only
    rw [if_neg (by simp)]
    exact StringPtr_of (by rw [nums_arrayTy (hid _)]; simp) (by rw [nums_array_ints])
  | wide ws =>
    refine ⟨_, .wide, ?_⟩
    unfold LitString.toks
    dsimp only
    rw [if_neg (by simp)]
    exact StringPtr_of (by rw [nums_arrayTy (wcharToks_noNum P)]; simp) (by rw [nums_array_wide (wcharToks_noNum P)])

/-- **C32**: a string literal as the body of a function-like macro is a pointer to an array with the
units of the literal and one terminating zero. -/
theorem C32_string_pointers (C : Ctx) (name : Str) (args : List Str) (s : LitString) (out : GenFn)
    (h : FnMacro.Generates C ⟨name, args, .expr (.lit (.string s))⟩ (.ok out)) :
    ∃ us, Spec.Units s us ∧ Spec.StringPtr us (Spec.code out) := by
  obtain ⟨tys, ht⟩ := h.argTypes
  have := (fnGenerates ht (ev_string (C := C) (L := fnLoc args) s ⟨tys, false⟩)).unique h
  generalize (Lit.string s).finish C _ = R at this
  rcases R with e | t
  · cases this
  · rcases (fnOut_ok this).2 with ⟨_, rfl⟩ | ⟨_, rfl⟩
    · exact toks_ptr _ s
    · exact toks_ptr _ s

/-- `#define F() "ab"` -/
example : FnMacro.generate 3 (Ctx.unit asciiEnv) ⟨c!"F", [], .expr (.lit (.string (.ordinary [97, 98])))⟩
    = .ok (.fn c!"F" [] (some q!"* const c_char") (q!"{ const BYTES : & [ u8 ;" ++ [.int 3 []] ++ q!"] =" ++ [.bytes [97, 98, 0]]
        ++ q!"; BYTES . as_ptr ( ) as * const c_char }")) := by
  decide +kernel

/-! ## C56 -/

/-- The text of a literal whose bytes are those of a text. -/
inductive Spec.TextOf : LitString → Str → Prop
  | ordinary {bs s} : bs = s.flatMap String.utf8EncodeChar → TextOf (.ordinary bs) s
  | utf8 {s} : TextOf (.utf8 s) s
  | utf16 {s} : TextOf (.utf16 s) s
  | utf32 {s} : TextOf (.utf32 s) s

/-- The joined text of literals. -/
inductive Spec.TextsOf : List LitString → Str → Prop
  | nil : TextsOf [] []
  | cons {p ps s t} : Spec.TextOf p s → TextsOf ps t → TextsOf (p :: ps) (s ++ t)

/-- The literal that adjacent literals stand for (C11 6.4.5p5): ordinary literals are joined; when
some have an encoding prefix, the same for all of them, the result has that prefix. -/
inductive Spec.Joined : List LitString → LitString → Prop
  | ordinary {bss : List (List UInt8)} : bss ≠ [] → Joined (bss.map .ordinary) (.ordinary bss.flatten)
  | prefixed {enc : Str → LitString} {parts : List LitString} {text : Str} :
      (enc = .utf8 ∨ enc = .utf16 ∨ enc = .utf32) → (∃ s, enc s ∈ parts) →
      (∀ p ∈ parts, (∃ s, p = enc s) ∨ ∃ bs, p = .ordinary bs) →
      Spec.TextsOf parts text → Joined parts (enc text)

/-- **C56**: adjacent string literals generate what the one literal they stand for generates. -/
def C56_statement : Prop := ∀ (C : Ctx) (name : Str) (parts : List LitString) (s : LitString),
  Spec.Joined parts s → ∀ r, VarMacro.Generates C ⟨name, .expr (.concatStr (parts.map fun s => .lit (.string s)))⟩ r →
    VarMacro.Generates C ⟨name, .expr (.lit (.string s))⟩ r

/-- `#define M u"a" "b"` is a `CStr` of bytes rather than an array of 16-bit units. -/
theorem C56_false : ¬ C56_statement := by
  intro h
  have hj : Spec.Joined [.utf16 ['a'], .ordinary [98]] (.utf16 ['a', 'b']) :=
    .prefixed (enc := .utf16) (by simp) ⟨['a'], by simp⟩ (by simp)
      (.cons .utf16 (.cons (s := ['b']) (.ordinary (by decide +kernel)) .nil))
  have h1 := varGenerates_of 5 (Ctx.unit asciiEnv) c!"M" (.concatStr [.lit (.string (.utf16 ['a'])), .lit (.string (.ordinary [98]))])
    (by decide +kernel)
  have h2 := varGenerates_of 5 (Ctx.unit asciiEnv) c!"M" (.lit (.string (.utf16 ['a', 'b']))) (by decide +kernel)
  exact absurd ((h _ _ _ _ hj _ h1).unique h2) (by decide +kernel)

theorem finishParts_ordinary {C : Ctx} {L : Loc} {n : Nat} (st : LState) : ∀ (bss : List (List UInt8)) (cur : Option (List UInt8)),
    (bss ≠ [] ∨ cur ≠ none) →
    finishParts (Expr.finish C L (n + 1)) (bss.map fun bs => .lit (.string (.ordinary bs))) cur st
      = (bss.map fun bs => .lit (.string (.ordinary bs)), st, .ok [.lit (.string (.ordinary (cur.getD [] ++ bss.flatten)))])
  | [], cur, h => by
    cases cur with
    | none => simp at h
    | some c => simp [finishParts, flush]
  | bs :: bss, cur, _ => by
    have ih := finishParts_ordinary (C := C) (L := L) (n := n) st bss (some (cur.getD [] ++ bs)) (.inr (by simp))
    have hs : Expr.finish C L (n + 1) (.lit (.string (.ordinary bs))) st
      = ⟨.lit (.string (.ordinary bs)), st, .ok (some (constPtr (.builtIn .char)))⟩ := rfl
    rw [List.map_cons, finishParts, hs]
    simp only [LitString.asBytes, ih, Option.getD_some, List.flatten_cons, List.append_assoc]

/-- **C56**, partial: for literals without encoding prefix. Missing: literals with a prefix, where
it is false (`C56_false`). -/
theorem C56_adjacent_literals_partial (C : Ctx) (name : Str) (bss : List (List UInt8)) (hne : bss ≠ []) (r)
    (h : VarMacro.Generates C ⟨name, .expr (.concatStr (bss.map fun bs => .lit (.string (.ordinary bs))))⟩ r) :
    VarMacro.Generates C ⟨name, .expr (.lit (.string (.ordinary bss.flatten)))⟩ r := by
  have hs := ev_string (C := C) (L := varLoc C) (.ordinary bss.flatten) .init
  have hE : Ev C (varLoc C) (.concatStr (bss.map fun bs => .lit (.string (.ordinary bs)))) .init _ :=
    .step' hs 1 fun n hn => by
      obtain ⟨m, rfl⟩ : ∃ m, n = m + 1 := ⟨n - 1, by omega⟩
      rw [finishStep, finishParts_ordinary _ _ _ (.inl hne)]
      simp
  rw [← (varGenerates (name := name) hE).unique h]
  exact varGenerates hs

/-- `#define M "a" "b"` -/
example : VarMacro.generate 5 (Ctx.unit asciiEnv) ⟨c!"M", .expr (.concatStr [.lit (.string (.ordinary [97])), .lit (.string (.ordinary [98]))])⟩
      = .ok (q!"{ # [ allow ( unsafe_code ) ] unsafe { CStr :: from_bytes_with_nul_unchecked (" ++ [.bytes [97, 98, 0]] ++ q!") } }",
        some q!"& CStr") := by
  decide +kernel

end CMacro
