import Verif.Spec.CommandLine
import Verif.Props.Demo

/-!
# The command line of the daemon (C99)
-/

namespace Mctp

/-- The forms that work: the long ones, and the short ones of `-b` and `-v`; a value joined to `-b` is not empty. -/
def Works : Item → Prop
  | .inl (.captureBinding f, form) => form = .shortJoined → f ≠ []
  | .inl (.captureSocket _, form) => form = .long ∨ form = .longEq
  | .inl (.eid n, form) => n ≤ 255 ∧ (form = .long ∨ form = .longEq)
  | .inl (.verbose, _) => True
  | .inr word => PlainWord word

/-- The result of `getopt_long` for an option. -/
def optOf : Ask → Opt
  | .captureBinding f => ('b', some f)
  | .captureSocket f => ('s', some f)
  | .eid n => ('e', some (Nat.toDigits 10 n))
  | .verbose => ('v', none)

theorem takeWhile_eqSign (name v : List Char) (h : '=' ∉ name) :
    (name ++ '=' :: v).takeWhile (· ≠ '=') = name ∧ (name ++ '=' :: v).dropWhile (· ≠ '=') = '=' :: v := by
  induction name with
  | nil => simp
  | cons a name ih =>
    have ha : a ≠ '=' := fun e => h (by simp [e])
    have := ih (fun e => h (by simp [e]))
    simp_all

theorem noEqSign (name : List Char) (h : '=' ∉ name) :
    name.takeWhile (· ≠ '=') = name ∧ name.dropWhile (· ≠ '=') = [] := by
  induction name with
  | nil => simp
  | cons a name ih =>
    have ha : a ≠ '=' := fun e => h (by simp [e])
    have := ih (fun e => h (by simp [e]))
    simp_all

theorem longArg_long {name : List Char} {c : Char} (h : '=' ∉ name) (hl : longOption name = some (.required, c)) (v : List Char)
    (rest : List (List Char)) : longArg name (v :: rest) = ([(c, some v)], rest) := by
  unfold longArg
  rw [(noEqSign name h).1, (noEqSign name h).2]; simp only [hl]

theorem longArg_longEq {name : List Char} {c : Char} (h : '=' ∉ name) (hl : longOption name = some (.required, c)) (v : List Char)
    (rest : List (List Char)) : longArg (name ++ '=' :: v) rest = ([(c, some v)], rest) := by
  unfold longArg
  rw [(takeWhile_eqSign name v h).1, (takeWhile_eqSign name v h).2]; simp only [hl]

theorem longArg_none {name : List Char} {c : Char} (h : '=' ∉ name) (hl : longOption name = some (.no, c))
    (rest : List (List Char)) : longArg name rest = ([(c, none)], rest) := by
  unfold longArg
  rw [(noEqSign name h).1, (noEqSign name h).2]; simp only [hl]

theorem getopt_long {text : List Char} (h : text ≠ []) (rest : List (List Char)) :
    getoptLong (('-' :: '-' :: text) :: rest) =
      ((longArg text rest).1 ++ (getoptLong (longArg text rest).2).1, (getoptLong (longArg text rest).2).2) := by
  cases text with
  | nil => exact absurd rfl h
  | cons a t => rw [getoptLong]; simp

theorem getopt_short {c : Char} {cs : List Char} (h : c ≠ '-') (rest : List (List Char)) :
    getoptLong (('-' :: c :: cs) :: rest) = ((shortCluster (c :: cs) rest).1 ++ (getoptLong (shortCluster (c :: cs) rest).2).1,
      (getoptLong (shortCluster (c :: cs) rest).2).2) := by
  rw [getoptLong]
  all_goals (intros; simp_all)

/-- An option in a form that works is found. -/
theorem getopt_ask {a : Ask} {form : Form} (h : Works (.inl (a, form))) (rest : List (List Char)) :
    getoptLong (a.words form ++ rest) = (optOf a :: (getoptLong rest).1, (getoptLong rest).2) := by
  have long : ∀ {name : List Char} {c : Char} (v : List Char), name ≠ [] → '=' ∉ name → longOption name = some (.required, c) →
      getoptLong (['-' :: '-' :: name, v] ++ rest) = ((c, some v) :: (getoptLong rest).1, (getoptLong rest).2) := by
    intro name c v h1 h2 h3
    show getoptLong (('-' :: '-' :: name) :: v :: rest) = _
    rw [getopt_long h1, longArg_long h2 h3]; rfl
  have longEq : ∀ {name : List Char} {c : Char} (v : List Char), '=' ∉ name → longOption name = some (.required, c) →
      getoptLong (['-' :: '-' :: (name ++ '=' :: v)] ++ rest) = ((c, some v) :: (getoptLong rest).1, (getoptLong rest).2) := by
    intro name c v h2 h3
    show getoptLong (('-' :: '-' :: (name ++ '=' :: v)) :: rest) = _
    rw [getopt_long (by simp), longArg_longEq h2 h3]; rfl
  have longNo : ∀ {name : List Char} {c : Char}, name ≠ [] → '=' ∉ name → longOption name = some (.no, c) →
      getoptLong (['-' :: '-' :: name] ++ rest) = ((c, none) :: (getoptLong rest).1, (getoptLong rest).2) := by
    intro name c h1 h2 h3
    show getoptLong (('-' :: '-' :: name) :: rest) = _
    rw [getopt_long h1, longArg_none h2 h3]; rfl
  cases a with
  | captureBinding f =>
    cases form with
    | long => exact long f (by simp) (by decide +kernel) (by decide +kernel)
    | longEq => exact longEq f (by decide +kernel) (by decide +kernel)
    | short =>
      show getoptLong (['-', 'b'] :: f :: rest) = _
      rw [getopt_short (by decide)]; rfl
    | shortJoined =>
      have hf : f ≠ [] := h rfl
      show getoptLong (('-' :: 'b' :: f) :: rest) = _
      rw [getopt_short (by decide)]
      cases f with
      | nil => exact absurd rfl hf
      | cons x f => rfl
  | captureSocket f =>
    rcases h with rfl | rfl
    · exact long f (by simp) (by decide +kernel) (by decide +kernel)
    · exact longEq f (by decide +kernel) (by decide +kernel)
  | eid n =>
    rcases h.2 with rfl | rfl
    · exact long _ (by simp) (by decide +kernel) (by decide +kernel)
    · exact longEq _ (by decide +kernel) (by decide +kernel)
  | verbose =>
    have hs : getoptLong ([['-', 'v']] ++ rest) = (('v', none) :: (getoptLong rest).1, (getoptLong rest).2) := by
      show getoptLong (['-', 'v'] :: rest) = _
      rw [getopt_short (by decide)]; rfl
    cases form with
    | long => exact longNo (by simp) (by decide +kernel) (by decide +kernel)
    | longEq => exact longNo (by simp) (by decide +kernel) (by decide +kernel)
    | short => exact hs
    | shortJoined => exact hs

theorem getopt_plain {word : List Char} (h : PlainWord word) (rest : List (List Char)) :
    getoptLong (word :: rest) = ((getoptLong rest).1, word :: (getoptLong rest).2) := by
  cases word with
  | nil => rw [getoptLong] <;> simp
  | cons c cs =>
    have hc : c ≠ '-' := fun e => h (by simp [e])
    rw [getoptLong]
    all_goals (intros; simp_all)

theorem getopt_items {items : List Item} (h : ∀ i ∈ items, Works i) :
    getoptLong (items.flatMap Item.words) = ((askedOf items).map optOf, plainOf items) := by
  induction items with
  | nil => rw [List.flatMap_nil, getoptLong]; rfl
  | cons i items ih =>
    have ih := ih fun j hj => h j (List.mem_cons_of_mem _ hj)
    have hi := h i List.mem_cons_self
    rw [List.flatMap_cons]
    cases i with
    | inl a =>
      obtain ⟨a, form⟩ := a
      show getoptLong (a.words form ++ _) = _
      rw [getopt_ask hi, ih]
      rfl
    | inr word =>
      show getoptLong (word :: (items.flatMap Item.words)) = _
      rw [getopt_plain hi, ih]
      rfl

/-- `atoi` of a number up to 255 in decimal. -/
theorem atoi_digits : ∀ n : Fin 256, atoi (Nat.toDigits 10 n.val) = n.val := by decide +kernel

theorem takeOptions_asks : ∀ (asks : List Ask) (s : Settings), (∀ n, Ask.eid n ∈ asks → n ≤ 255) →
    takeOptions s (asks.map optOf) = .ok (some (asks.foldl Ask.apply s))
  | [], s, _ => rfl
  | a :: asks, s, h => by
    have ih := takeOptions_asks asks (a.apply s) fun n hn => h n (List.mem_cons_of_mem _ hn)
    rw [List.foldl_cons, ← ih]
    cases a with
    | captureBinding f => rfl
    | captureSocket f => rfl
    | verbose => rfl
    | eid n =>
      have hn := h n List.mem_cons_self
      have := atoi_digits ⟨n, by omega⟩
      simp only at this
      show takeOptions { s with localEid := atoi (Nat.toDigits 10 n) } _ = _
      rw [this]
      rfl

/-- **C99**, as far as it is true: for every command line made of options and other words, in any order, with the options in the
long forms (or `-b`, `-v`) and EIDs up to 255: the daemon uses what was asked for (the last one of each kind), the first other
word is its binding, and the rest are the binding's parameters. -/
theorem C99_honoured_partial {items : List Item} (h : ∀ i ∈ items, Works i) {name : List Char} {params : List (List Char)}
    (hp : plainOf items = name :: params) :
    parseArgs (items.flatMap Item.words) = .ok (some ((askedOf items).foldl Ask.apply {}, name, params)) := by
  unfold parseArgs
  rw [getopt_items h]
  simp only
  rw [takeOptions_asks]
  · rw [hp]; rfl
  · intro n hn
    simp only [askedOf, List.mem_filterMap] at hn
    obtain ⟨i, hi, he⟩ := hn
    cases i with
    | inl a =>
      obtain ⟨a, form⟩ := a
      simp only [Option.some.injEq] at he
      subst he
      exact (h _ hi).1
    | inr w => simp at he

/-- **C99** Without a binding's name the daemon exits with a failure. -/
theorem C99_no_binding {items : List Item} (h : ∀ i ∈ items, Works i) (hp : plainOf items = []) :
    parseArgs (items.flatMap Item.words) = .ok none := by
  unfold parseArgs
  rw [getopt_items h]
  simp only
  rw [takeOptions_asks]
  · rw [hp]; rfl
  · intro n hn
    simp only [askedOf, List.mem_filterMap] at hn
    obtain ⟨i, hi, he⟩ := hn
    cases i with
    | inl a =>
      obtain ⟨a, form⟩ := a
      simp only [Option.some.injEq] at he
      subst he
      exact (h _ hi).1
    | inr w => simp at he

/-- C99 does not hold (1): the short form of the EID crashes, whatever follows. -/
theorem C99_short_eid (n : Nat) (rest : List (List Char)) : parseArgs ((Ask.eid n).words .short ++ rest) = .error .nullDeref := by
  show parseArgs (['-', 'e'] :: Nat.toDigits 10 n :: rest) = _
  unfold parseArgs
  rw [getopt_short (by decide)]
  rfl

/-- C99 does not hold (2): the short form of the capture of the clients' messages loses the file name, which is taken for the
name of the binding. -/
theorem C99_short_socket {file name : List Char} (hf : PlainWord file) (hn : PlainWord name) {params : List (List Char)}
    (hp : ∀ p ∈ params, PlainWord p) :
    parseArgs ((Ask.captureSocket file).words .short ++ name :: params) = .ok (some ({}, file, name :: params)) := by
  have hrest : ∀ ps : List (List Char), (∀ p ∈ ps, PlainWord p) → getoptLong ps = ([], ps) := by
    intro ps
    induction ps with
    | nil => intro _; rw [getoptLong]
    | cons p ps ih =>
      intro h
      rw [getopt_plain (h p List.mem_cons_self), ih fun q hq => h q (List.mem_cons_of_mem _ hq)]
  have hg : getoptLong (['-', 's'] :: file :: name :: params) = ([('s', none)], file :: name :: params) := by
    rw [getopt_short (by decide)]
    show ([('s', none)] ++ (getoptLong (file :: name :: params)).1, (getoptLong (file :: name :: params)).2) = _
    rw [hrest (file :: name :: params) (by
      intro p hp'
      rcases List.mem_cons.mp hp' with rfl | hp'
      · exact hf
      rcases List.mem_cons.mp hp' with rfl | hp'
      · exact hn
      · exact hp p hp')]
    rfl
  show parseArgs (['-', 's'] :: file :: name :: params) = _
  unfold parseArgs
  rw [hg]
  rfl

/-- C99 does not hold (3): the EID of the bus and the EID the daemon takes for its own are the same exactly for the values 0 to
255; a larger number is accepted, truncated for the bus only, and no client's message is then local. -/
theorem C99_eid_range (e : Int) : (∀ b : Byte, (b.toNat : Int) = e ↔ b = BitVec.ofInt 8 e) ↔ (0 ≤ e ∧ e ≤ 255) := by
  constructor
  · intro h
    have := (h (BitVec.ofInt 8 e)).mpr rfl
    have hlt := (BitVec.ofInt 8 e).isLt
    omega
  · rintro ⟨h0, h1⟩ b
    obtain ⟨n, rfl⟩ := Int.eq_ofNat_of_zero_le h0
    have hn : n < 256 := by omega
    constructor
    · intro hb
      have : b.toNat = n := by omega
      subst this
      apply BitVec.eq_of_toNat_eq
      simp
    · rintro rfl
      simp; omega

theorem ok_of_toOption {α : Type} {x : Res α} {a : α} (h : x.toOption = some a) : x = .ok a := by
  cases x with
  | error f => simp [Except.toOption] at h
  | ok b => simp only [Except.toOption, Option.some.injEq] at h; rw [h]

/-- ... as for 264. -/
theorem C99_large_eid : parseArgs ["--eid".toList, "264".toList, "null".toList] = .ok (some ({ localEid := 264 }, "null".toList, [])) ∧
    BitVec.ofInt 8 264 = 8#8 ∧ ∀ b : Byte, (b.toNat : Int) ≠ 264 := by
  refine ⟨ok_of_toOption (by decide +kernel), by decide, fun b hb => ?_⟩
  have := b.isLt
  omega

/-! ### The number after `--eid` -/

/-- White space, as for the C library. -/
def blank (c : Char) : Prop := c ∈ [' ', '\t', '\n', '\x0b', '\x0c', '\r']

theorem blank_iff {c : Char} (h : blank c) : (c == ' ' || ('\t' ≤ c && c ≤ '\r')) = true := by
  simp only [blank, List.mem_cons, List.not_mem_nil, or_false] at h
  rcases h with rfl | rfl | rfl | rfl | rfl | rfl <;> decide

theorem decimal_ofDigits : ∀ (ds : List Char) (n : Nat) {rest : List Char}, (∀ c ∈ ds, c.isDigit = true) → (∀ c ∈ rest.head?, c.isDigit = false) →
    decimal n (ds ++ rest) = Nat.ofDigitChars 10 ds n
  | [], n, rest, _, hr => by
    cases rest with
    | nil => simp [decimal]
    | cons c cs => simp [decimal, hr c rfl]
  | c :: ds, n, rest, hd, hr => by
    rw [Nat.ofDigitChars_cons, List.cons_append, decimal, if_pos (hd c List.mem_cons_self)]
    exact decimal_ofDigits ds _ (fun d h => hd d (List.mem_cons_of_mem _ h)) hr

theorem decimal_number (n : Nat) {rest : List Char} (hr : ∀ c ∈ rest.head?, c.isDigit = false) : decimal 0 (Nat.toDigits 10 n ++ rest) = n := by
  rw [decimal_ofDigits _ _ (fun c hc => Nat.isDigit_of_mem_toDigits (by decide) (by decide) hc) hr, Nat.ofDigitChars_ten_toDigits]

theorem dropWhile_blank {ws : List Char} (hw : ∀ c ∈ ws, blank c) {text : List Char}
    (ht : ∀ c ∈ text.head?, (c == ' ' || ('\t' ≤ c && c ≤ '\r')) = false) :
    (ws ++ text).dropWhile (fun c => c == ' ' || ('\t' ≤ c && c ≤ '\r')) = text := by
  induction ws with
  | nil =>
    cases text with
    | nil => rfl
    | cons c cs =>
      rw [List.nil_append, List.dropWhile_cons_of_neg]
      rw [ht c rfl]; decide
  | cons c cs ih =>
    rw [List.cons_append, List.dropWhile_cons, if_pos (blank_iff (hw c List.mem_cons_self))]
    exact ih fun d hd => hw d (List.mem_cons_of_mem _ hd)

theorem digit_range {c : Char} (h : c.isDigit = true) : 48 ≤ c.toNat ∧ c.toNat ≤ 57 := by
  simp only [Char.isDigit, Bool.and_eq_true, decide_eq_true_eq] at h
  obtain ⟨h1, h2⟩ := h
  exact ⟨UInt32.le_iff_toNat_le.mp h1, UInt32.le_iff_toNat_le.mp h2⟩

theorem digit_not_blank {c : Char} (h : c.isDigit = true) : (c == ' ' || ('\t' ≤ c && c ≤ '\r')) = false := by
  have ⟨h1, h2⟩ := digit_range h
  have e1 : (c == ' ') = false := by
    rw [beq_eq_false_iff_ne]; rintro rfl; revert h1; decide
  have e2 : ¬ c ≤ '\r' := by
    intro hc
    have : c.toNat ≤ 13 := UInt32.le_iff_toNat_le.mp (Char.le_def.mp hc)
    omega
  simp [e1, e2]

/-- `(int)` keeps the values of an `int`, and otherwise the remainder. -/
theorem toInt32_small {n : Int} (h1 : -2 ^ 31 ≤ n) (h2 : n < 2 ^ 31) : toInt32 n = n := by
  unfold toInt32; split <;> omega

theorem toInt32_range (n : Int) : -2 ^ 31 ≤ toInt32 n ∧ toInt32 n < 2 ^ 31 ∧ (2 ^ 32 : Int) ∣ toInt32 n - n := by
  unfold toInt32
  split
  · omega
  · omega

/-- How a number is written. -/
inductive Sign
  | unsigned
  | plus
  | minus

def Sign.text : Sign → List Char
  | .unsigned => []
  | .plus => ['+']
  | .minus => ['-']

def Sign.value (n : Nat) : Sign → Int
  | .minus => -n
  | _ => n

theorem atoi_number {ws : List Char} (hw : ∀ c ∈ ws, blank c) (sign : Sign) (n : Nat) {rest : List Char} (hr : ∀ c ∈ rest.head?, c.isDigit = false) :
    atoi (ws ++ (sign.text ++ (Nat.toDigits 10 n ++ rest))) = toInt32 (max (-2 ^ 63) (min (2 ^ 63 - 1) (sign.value n))) := by
  have hd := decimal_number n hr
  obtain ⟨d, ds, hds⟩ : ∃ d ds, Nat.toDigits 10 n = d :: ds := by
    cases h : Nat.toDigits 10 n with
    | nil => exact absurd h Nat.toDigits_ne_nil
    | cons d ds => exact ⟨d, ds, rfl⟩
  have hdig : d.isDigit = true := Nat.isDigit_of_mem_toDigits (b := 10) (n := n) (by decide) (by decide) (by rw [hds]; exact List.mem_cons_self)
  have hrange := digit_range hdig
  unfold atoi
  rw [dropWhile_blank hw]
  · cases sign with
    | minus =>
      simp only [Sign.text, Sign.value, List.cons_append, List.nil_append, hd]
      congr 1; omega
    | plus =>
      simp only [Sign.text, Sign.value, List.cons_append, List.nil_append, hd]
      congr 1; omega
    | unsigned =>
      simp only [Sign.text, Sign.value, List.nil_append]
      rw [hds] at hd ⊢
      simp only [List.cons_append] at hd ⊢
      split
      · rename_i heq; cases heq; exact absurd hrange (by decide)
      · rename_i heq; cases heq; exact absurd hrange (by decide)
      · rw [hd]; congr 1; omega
  · intro c hc
    cases sign with
    | minus => simp only [Sign.text, List.cons_append, List.nil_append, List.head?_cons, Option.mem_def, Option.some.injEq] at hc; subst hc; decide
    | plus => simp only [Sign.text, List.cons_append, List.nil_append, List.head?_cons, Option.mem_def, Option.some.injEq] at hc; subst hc; decide
    | unsigned =>
      simp only [Sign.text, List.nil_append, hds, List.cons_append, List.head?_cons, Option.mem_def, Option.some.injEq] at hc; subst hc
      exact digit_not_blank hdig

/-- The settings made by `--eid TEXT`. -/
theorem parse_eid (text : List Char) : parseArgs ["--eid".toList, text, "null".toList] = .ok (some ({ localEid := atoi text }, "null".toList, [])) := by
  have hg : getoptLong ["--eid".toList, text, "null".toList] = ([('e', some text)], ["null".toList]) := by
    have hn : getoptLong ["null".toList] = ([], ["null".toList]) := by decide +kernel
    rw [show "--eid".toList = '-' :: '-' :: "eid".toList from rfl, getoptLong]
    · rw [show longArg "eid".toList [text, "null".toList] = ([('e', some text)], ["null".toList]) from rfl]
      simp only [hn]; rfl
    · intro h; exact absurd h (by decide)
  unfold parseArgs
  rw [hg]
  rfl

/-- **C99** The number after `--eid`: with leading white space, a sign, and anything after it that is not a digit, it is the value of the number, if that is an `int`; a larger one is
reduced to its remainder, and one that does not fit a `long` is replaced by the limit of that type before. -/
theorem C99_number {ws : List Char} (hw : ∀ c ∈ ws, blank c) (sign : Sign) (n : Nat) {rest : List Char} (hr : ∀ c ∈ rest.head?, c.isDigit = false) :
    ∃ v : Int, parseArgs ["--eid".toList, ws ++ (sign.text ++ (Nat.toDigits 10 n ++ rest)), "null".toList] = .ok (some ({ localEid := v }, "null".toList, [])) ∧
      (-2 ^ 31 ≤ sign.value n → sign.value n < 2 ^ 31 → v = sign.value n) ∧
      (-2 ^ 31 ≤ v ∧ v < 2 ^ 31) ∧
      (-2 ^ 63 ≤ sign.value n → sign.value n < 2 ^ 63 → (2 ^ 32 : Int) ∣ v - sign.value n) ∧
      (2 ^ 63 ≤ sign.value n → v = -1) ∧ (sign.value n < -2 ^ 63 → v = 0) := by
  refine ⟨_, parse_eid _, ?_⟩
  rw [atoi_number hw sign n hr]
  refine ⟨fun h1 h2 => ?_, ⟨(toInt32_range _).1, (toInt32_range _).2.1⟩, fun h1 h2 => ?_, fun h => ?_, fun h => ?_⟩
  · rw [show max (-2 ^ 63) (min (2 ^ 63 - 1) (sign.value n)) = sign.value n from by omega]
    exact toInt32_small h1 h2
  · have := (toInt32_range (max (-2 ^ 63) (min (2 ^ 63 - 1) (sign.value n)))).2.2
    rwa [show max (-2 ^ 63) (min (2 ^ 63 - 1) (sign.value n)) = sign.value n from by omega] at this ⊢
  · rw [show max (-2 ^ 63) (min (2 ^ 63 - 1) (sign.value n)) = 2 ^ 63 - 1 from by omega]; decide
  · rw [show max (-2 ^ 63) (min (2 ^ 63 - 1) (sign.value n)) = -2 ^ 63 from by omega]; decide

/-- C99 does not hold (4): what is not a number is accepted as well, as EID 0. -/
theorem C99_not_a_number {c : Char} (hc : c.isDigit = false) (hp : c ≠ '+') (hm : c ≠ '-') (hb : (c == ' ' || ('\t' ≤ c && c ≤ '\r')) = false) (rest : List Char) :
    parseArgs ["--eid".toList, c :: rest, "null".toList] = .ok (some ({ localEid := 0 }, "null".toList, [])) := by
  rw [parse_eid]
  have : atoi (c :: rest) = 0 := by
    unfold atoi
    rw [List.dropWhile_cons_of_neg (by rw [hb]; decide)]
    simp only
    split
    · rename_i heq; cases heq; exact absurd rfl hm
    · rename_i heq; cases heq; exact absurd rfl hp
    · simp only [decimal, hc, Bool.false_eq_true, if_false]; decide
  rw [this]

/-- Numbers that meet this. -/
example : parseArgs ["--eid".toList, " +012x".toList, "null".toList] = .ok (some ({ localEid := 12 }, "null".toList, [])) ∧
    parseArgs ["--eid".toList, "seven".toList, "null".toList] = .ok (some ({ localEid := 0 }, "null".toList, [])) :=
  ⟨ok_of_toOption (by decide +kernel), C99_not_a_number (by decide) (by decide) (by decide) (by decide) _⟩

/-- The hypotheses are met. -/
example : ∀ i ∈ ([.inl (.captureBinding "b.pcap".toList, .shortJoined), .inr "serial".toList, .inl (.eid 20, .longEq), .inl (.eid 21, .long),
    .inr "/dev/ttyS0".toList, .inl (.captureSocket "s.pcap".toList, .longEq), .inl (.verbose, .short)] : List Item), Works i := by
  simp [Works, PlainWord]

example : parseArgs ["-bb.pcap".toList, "serial".toList, "--eid=20".toList, "--eid".toList, "21".toList, "/dev/ttyS0".toList,
      "--capture-socket=s.pcap".toList, "-v".toList] =
    .ok (some (⟨some "b.pcap".toList, some "s.pcap".toList, true, 21⟩, "serial".toList, ["/dev/ttyS0".toList])) :=
  ok_of_toOption (by decide +kernel)

end Mctp
