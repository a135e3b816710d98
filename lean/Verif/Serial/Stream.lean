/-
Character streams, and the serialisation primitives of libff on which every `operator<<` / `operator>>` of
libsnark is built (imported by libsnark/common/libsnark_serialization.hpp).

libff is not part of the checkout (depends/ is empty), so the functions of its `common/serialization`
header are a contract here: they are modelled after their documented behaviour, with both settings of the
compile-time switch `BINARY_OUTPUT`.  Printing of field and group elements is abstract (`Codec`).
-/
import Verif.Common
import Mathlib.Data.Nat.Init
import Mathlib.Tactic.Ring
import Mathlib.Tactic.IntervalCases

namespace Snark
namespace Serial

/-- The compile-time switch `BINARY_OUTPUT` of libff. -/
inductive Mode where
  | text
  | binary
  deriving DecidableEq, Repr

/-- A reader consumes characters from the front of an input stream.  A read that fails sets `failbit` and
leaves the variable it should have set uninitialised; the code never tests for that, so it counts as
undefined behaviour. -/
abbrev In (α : Type) := StateT (List Char) (Except Err) α

/-- `std::isspace` in the classic locale -/
def isSpace (c : Char) : Bool := c == ' ' || c == '\t' || c == '\n' || c == '\x0b' || c == '\x0c' || c == '\r'

/-- A decimal digit as a character. -/
def digit (d : Nat) : Char := Char.ofNat (48 + d)

/-- `out << n` for a non-negative integer -/
def dec (n : Nat) : List Char := if n < 10 then [digit n] else dec (n / 10) ++ [digit (n % 10)]

/-- The value of a string of digits. -/
def decVal (ds : List Char) : Nat := ds.foldl (fun n c => 10 * n + (c.toNat - 48)) 0

/-- `in >> n` for an unsigned 64-bit integer: skip white space, then take as many digits as there are.
Signs, which no printer below produces, are not modelled. -/
def readSize : In Nat := fun s =>
  let t := s.dropWhile isSpace
  let ds := t.takeWhile Char.isDigit
  if ds = [] ∨ 2 ^ 64 ≤ decVal ds then .error .ub else .ok (decVal ds, t.dropWhile Char.isDigit)

/-- `in.read(&b, 1)` with the character left unchecked -/
def readChar : In Char
  | [] => .error .ub
  | c :: s => .ok (c, s)

/-- `libff::consume_newline`: read one character and assert that it is the expected one -/
def consumeChar (e : Char) : In Unit
  | [] => .error .ub
  | c :: s => if c = e then .ok ((), s) else .error .assertFail

/-- `libff::consume_newline` -/
def consumeNewline : In Unit := consumeChar '\n'

/-- `OUTPUT_NEWLINE`: empty in binary mode -/
def nl : Mode → List Char
  | .text => ['\n']
  | .binary => []

/-- `OUTPUT_SEPARATOR`: empty in binary mode -/
def sep : Mode → List Char
  | .text => [' ']
  | .binary => []

/-- `libff::consume_OUTPUT_NEWLINE` -/
def consumeNl : Mode → In Unit
  | .text => consumeNewline
  | .binary => pure ()

/-- `libff::consume_OUTPUT_SEPARATOR` -/
def consumeSep : Mode → In Unit
  | .text => consumeChar ' '
  | .binary => pure ()

/-- `libff::output_bool` -/
def putBool (b : Bool) : List Char := dec (if b then 1 else 0) ++ ['\n']

/-- `libff::input_bool` -/
def getBool : In Bool := do
  let t ← readSize
  consumeNewline
  StateT.lift (cassert (t == 0 || t == 1))
  pure (t == 1)

/-- A loop `for (size_t i = 0; i < s; ++i)` that reads one more element each time. -/
def readMany {α : Type} (g : In α) : Nat → In (List α)
  | 0 => pure []
  | n + 1 => do
    let x ← g
    let xs ← readMany g n
    pure (x :: xs)

/-- `libff::output_bool_vector` -/
def putBools (v : List Bool) : List Char := dec v.length ++ '\n' :: v.flatMap putBool

/-- `libff::input_bool_vector` -/
def getBools : In (List Bool) := do
  let n ← readSize
  consumeNewline
  readMany getBool n

/-- A pair `operator<<`, `operator>>` for one type; the reader starts from a default-constructed
object. -/
structure Codec (α : Type) where
  put : α → List Char
  get : In α

/-- `operator<<(std::ostream&, const std::vector<T>&)` of libff -/
def putVec {α : Type} (m : Mode) (c : Codec α) (v : List α) : List Char :=
  dec v.length ++ '\n' :: v.flatMap fun x => c.put x ++ nl m

/-- `operator>>(std::istream&, std::vector<T>&)` of libff -/
def getVec {α : Type} (m : Mode) (c : Codec α) : In (List α) := do
  let n ← readSize
  consumeNewline
  readMany (do let x ← c.get; consumeNl m; pure x) n

/-- vectors -/
def vec {α : Type} (m : Mode) (c : Codec α) : Codec (List α) := ⟨putVec m c, getVec m c⟩

/-- The stream is at its end or at a white-space character. -/
def Stops (rest : List Char) : Prop := ∀ c ∈ rest.head?, isSpace c = true

/-- Writing `x` and reading it back returns `x` and leaves everything written after it in the stream. -/
def Codec.Returns {α : Type} (c : Codec α) (x : α) : Prop :=
  ∀ rest, c.get.run (c.put x ++ rest) = .ok (x, rest)

/-- The same, where in text mode what follows must start with white space.  This is all that holds of
elements which are printed as decimal numbers. -/
def Codec.ReturnsAt {α : Type} (m : Mode) (c : Codec α) (x : α) : Prop :=
  ∀ rest, (m = .text → Stops rest) → c.get.run (c.put x ++ rest) = .ok (x, rest)

theorem Codec.Returns.at {α : Type} {c : Codec α} {x : α} (h : c.Returns x) (m : Mode) : c.ReturnsAt m x :=
  fun rest _ => h rest

/-- a `size_t` value -/
abbrev Fits (n : Nat) : Prop := n < 2 ^ 64

/-! ### Lemmas -/

theorem run_bind {α β : Type} (x : In α) (f : α → In β) (s : List Char) :
    (x >>= f).run s = (x.run s >>= fun p => (f p.1).run p.2) := rfl

@[simp] theorem run_pure {α : Type} (a : α) (s : List Char) : (pure a : In α).run s = .ok (a, s) := rfl

theorem digit_isDigit {d : Nat} (h : d < 10) : (digit d).isDigit = true := by
  interval_cases d <;> decide

theorem digit_val {d : Nat} (h : d < 10) : (digit d).toNat - 48 = d := by
  interval_cases d <;> decide

theorem isDigit_not_space {c : Char} (h : c.isDigit = true) : isSpace c = false := by
  simp only [isSpace, Bool.or_eq_false_iff, beq_eq_false_iff_ne, ne_eq]
  refine ⟨⟨⟨⟨⟨?_, ?_⟩, ?_⟩, ?_⟩, ?_⟩, ?_⟩ <;> rintro rfl <;> revert h <;> decide

theorem dec_ne_nil (n : Nat) : dec n ≠ [] := by
  unfold dec; split <;> simp

theorem dec_digits (n : Nat) : ∀ c ∈ dec n, c.isDigit = true := by
  induction n using Nat.strongRecOn with
  | _ n ih =>
    unfold dec
    split
    · rename_i h
      intro c hc
      rw [List.mem_singleton] at hc
      exact hc ▸ digit_isDigit h
    · rename_i h
      intro c hc
      rcases List.mem_append.1 hc with hc | hc
      · exact ih _ (by omega) c hc
      · rw [List.mem_singleton] at hc
        exact hc ▸ digit_isDigit (by omega)

theorem decVal_dec (n : Nat) : decVal (dec n) = n := by
  induction n using Nat.strongRecOn with
  | _ n ih =>
    unfold dec
    split
    · rename_i h
      simp only [decVal, List.foldl]
      rw [digit_val h]; omega
    · rename_i h
      have := ih (n / 10) (by omega)
      simp only [decVal, List.foldl_append, List.foldl] at this ⊢
      rw [this, digit_val (by omega)]; omega

theorem dropWhile_space_dec (n : Nat) (rest : List Char) :
    (dec n ++ rest).dropWhile isSpace = dec n ++ rest := by
  cases h : dec n with
  | nil => exact absurd h (dec_ne_nil n)
  | cons c cs =>
    have := isDigit_not_space (dec_digits n c (by simp [h]))
    simp [this]

theorem takeWhile_append_all {α : Type} {p : α → Bool} {xs ys : List α} (h : ∀ x ∈ xs, p x = true) :
    (xs ++ ys).takeWhile p = xs ++ ys.takeWhile p := by
  induction xs with
  | nil => rfl
  | cons x xs ih =>
    simp only [List.cons_append]
    rw [List.takeWhile_cons, if_pos (h x (by simp)), ih fun y hy => h y (by simp [hy])]

theorem dropWhile_append_all {α : Type} {p : α → Bool} {xs ys : List α} (h : ∀ x ∈ xs, p x = true) :
    (xs ++ ys).dropWhile p = ys.dropWhile p := by
  induction xs with
  | nil => rfl
  | cons x xs ih =>
    simp only [List.cons_append]
    rw [List.dropWhile_cons, if_pos (h x (by simp)), ih fun y hy => h y (by simp [hy])]

/-- Reading a number back, when the next character is not a digit. -/
theorem readSize_dec {n : Nat} (hn : Fits n) {rest : List Char} (hr : ∀ c ∈ rest.head?, c.isDigit = false) :
    readSize.run (dec n ++ rest) = .ok (n, rest) := by
  have h1 : rest.takeWhile Char.isDigit = [] := by
    cases rest with
    | nil => rfl
    | cons c cs => simp [hr c (by simp)]
  have h2 : rest.dropWhile Char.isDigit = rest := by
    cases rest with
    | nil => rfl
    | cons c cs => simp [hr c (by simp)]
  show (if _ then _ else _ : Except Err (Nat × List Char)) = _
  rw [dropWhile_space_dec, takeWhile_append_all (dec_digits n), dropWhile_append_all (dec_digits n), h1, h2,
    List.append_nil, decVal_dec, if_neg]
  rintro (h | h)
  · exact dec_ne_nil n h
  · exact absurd h (by simpa using hn)

/-- Reading a number followed by a newline. -/
@[simp] theorem readSize_nl {n : Nat} (hn : Fits n) (rest : List Char) :
    readSize.run (dec n ++ '\n' :: rest) = .ok (n, '\n' :: rest) :=
  readSize_dec hn (by intro c hc; rw [List.head?_cons, Option.mem_some_iff] at hc; subst hc; decide)

/-- A newline before a number is skipped. -/
theorem readSize_skip (rest : List Char) : readSize.run ('\n' :: rest) = readSize.run rest := rfl

@[simp] theorem consumeNewline_run (rest : List Char) :
    consumeNewline.run ('\n' :: rest) = .ok ((), rest) := rfl

@[simp] theorem readChar_run (c : Char) (rest : List Char) : readChar.run (c :: rest) = .ok (c, rest) := rfl

@[simp] theorem consumeNl_run (m : Mode) (rest : List Char) : (consumeNl m).run (nl m ++ rest) = .ok ((), rest) := by
  cases m <;> rfl

@[simp] theorem consumeSep_run (m : Mode) (rest : List Char) :
    (consumeSep m).run (sep m ++ rest) = .ok ((), rest) := by
  cases m <;> rfl

theorem stops_nl (m : Mode) (rest : List Char) : m = .text → Stops (nl m ++ rest) := by
  rintro rfl
  intro c hc
  have : c = '\n' := by simpa [nl] using hc.symm
  subst this; rfl

theorem stops_sep (m : Mode) (rest : List Char) : m = .text → Stops (sep m ++ rest) := by
  rintro rfl
  intro c hc
  have : c = ' ' := by simpa [sep] using hc.symm
  subst this; rfl

/-- An element followed by `OUTPUT_NEWLINE`. -/
theorem Codec.ReturnsAt.nl {α : Type} {m : Mode} {c : Codec α} {x : α} (h : c.ReturnsAt m x)
    (rest : List Char) : c.get.run (c.put x ++ (Serial.nl m ++ rest)) = .ok (x, Serial.nl m ++ rest) :=
  h _ (stops_nl m rest)

/-- An element followed by `OUTPUT_SEPARATOR`. -/
theorem Codec.ReturnsAt.sep {α : Type} {m : Mode} {c : Codec α} {x : α} (h : c.ReturnsAt m x)
    (rest : List Char) : c.get.run (c.put x ++ (Serial.sep m ++ rest)) = .ok (x, Serial.sep m ++ rest) :=
  h _ (stops_sep m rest)

theorem getBool_run (b : Bool) (rest : List Char) : getBool.run (putBool b ++ rest) = .ok (b, rest) := by
  have h1 : Fits (if b then 1 else 0) := by cases b <;> simp
  simp only [getBool, putBool, List.append_assoc, List.cons_append, List.nil_append, run_bind,
    readSize_nl h1, bind_ok, consumeNewline_run]
  cases b <;> rfl

theorem readMany_run {α : Type} {g : In α} {p : α → List Char} (xs : List α)
    (h : ∀ x ∈ xs, ∀ rest, g.run (p x ++ rest) = .ok (x, rest)) (rest : List Char) :
    (readMany g xs.length).run (xs.flatMap p ++ rest) = .ok (xs, rest) := by
  induction xs with
  | nil => rfl
  | cons x xs ih =>
    simp only [List.length_cons, readMany, List.flatMap_cons, List.append_assoc, run_bind]
    rw [h x (by simp)]
    simp only [bind_ok]
    rw [ih fun y hy => h y (by simp [hy])]
    rfl

theorem getBools_run {v : List Bool} (hv : Fits v.length) (rest : List Char) :
    getBools.run (putBools v ++ rest) = .ok (v, rest) := by
  simp only [getBools, putBools, List.append_assoc, List.cons_append, run_bind, readSize_nl hv, bind_ok,
    consumeNewline_run]
  exact readMany_run v (fun x _ r => getBool_run x r) rest

theorem vec_returns {α : Type} {m : Mode} {c : Codec α} {v : List α} (hv : Fits v.length)
    (h : ∀ x ∈ v, c.ReturnsAt m x) : (vec m c).Returns v := by
  intro rest
  simp only [vec, getVec, putVec, List.append_assoc, List.cons_append, run_bind, readSize_nl hv, bind_ok,
    consumeNewline_run]
  refine readMany_run v (fun x hx r => ?_) rest
  rw [List.append_assoc, run_bind, (h x hx).nl]
  simp only [bind_ok, run_bind, consumeNl_run, run_pure]

end Serial
end Snark
