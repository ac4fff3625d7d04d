import Verif.Props.PestText

/-! # Numbers in the grammar file (C58) -/

namespace Verif
namespace Pest

/-- the number that digits stand for -/
def placeValue (b : Nat) : List Nat → Nat
  | [] => 0
  | d :: ds => d * b ^ ds.length + placeValue b ds

theorem placeValue_foldl (b : Nat) (ds : List Nat) : ∀ v, ds.foldl (fun v d => b * v + d) v = v * b ^ ds.length + placeValue b ds := by
  induction ds with
  | nil => intro v; simp [placeValue]
  | cons d ds ih =>
    intro v
    rw [List.foldl_cons, ih, placeValue, List.length_cons, Nat.pow_succ, Nat.add_mul, ← Nat.add_assoc]
    congr 2
    rw [Nat.mul_comm b v, Nat.mul_assoc, Nat.mul_comm b]

/-- the digits, as characters, in upper or lower case -/
def decimal (i : Fin 10) : Char := c!"0123456789".getD i '0'
def hexLower (i : Fin 16) : Char := c!"0123456789abcdef".getD i '0'
def hexUpper (i : Fin 16) : Char := c!"0123456789ABCDEF".getD i '0'

theorem decimal_val : ∀ i : Fin 10, isDigitChar (decimal i) = true ∧ (decimal i).toNat - 48 = i := by decide
theorem hex_val : ∀ i : Fin 16, hexVal (hexLower i) = some i ∧ hexVal (hexUpper i) = some i ∧ hexLower i ≠ '}' ∧ hexUpper i ≠ '}' := by decide

/-- C58: decimal numbers in the grammar file are read by place values. -/
theorem C58_decimal (d : Fin 10) (ds : List (Fin 10)) (n : Nat) :
    tokens (n + 2) ((d :: ds).map fun i => decimal i) = some [.num (placeValue 10 ((d :: ds).map (·.val)))] := by
  have hd := decimal_val d
  have ht : (ds.map fun i => decimal i).takeWhile isDigitChar = ds.map fun i => decimal i := by
    induction ds with
    | nil => rfl
    | cons e ds ih => rw [List.map_cons, List.takeWhile_cons, (decimal_val e).1, ih]; rfl
  have hw : (ds.map fun i => decimal i).dropWhile isDigitChar = [] := by
    clear ht
    induction ds with
    | nil => rfl
    | cons e ds ih => rw [List.map_cons, List.dropWhile_cons, (decimal_val e).1, ih]; rfl
  have hne : ∀ i : Fin 10, (decimal i = ' ' || decimal i = '\t' || decimal i = '\n' || decimal i = '\r') = false ∧
      decimal i ≠ '/' ∧ decimal i ≠ '"' := by decide
  rw [List.map_cons]
  unfold tokens
  rw [(hne d).1, if_neg (by decide), if_neg (hne d).2.1, if_neg (hne d).2.2, if_pos hd.1]
  simp only [ht, hw, tokens, Option.map_some]
  have : ∀ (ds : List (Fin 10)) v, (ds.map fun i => decimal i).foldl (fun v c => 10 * v + (c.toNat - 48)) v =
      (ds.map (·.val)).foldl (fun v d => 10 * v + d) v := by
    intro ds
    induction ds with
    | nil => intro v; rfl
    | cons e ds ih => intro v; rw [List.map_cons, List.map_cons, List.foldl_cons, List.foldl_cons, ih, (decimal_val e).2]
  have := this (d :: ds) 0
  rw [placeValue_foldl, Nat.zero_mul, Nat.zero_add, List.map_cons] at this
  rw [this]

/-- C58: the hexadecimal numbers of `\u{…}`, in upper or lower case -/
theorem C58_hex (ds : List (Fin 16 × Bool)) (s : Str) :
    hexDigits 0 ((ds.map fun i => if i.2 then hexUpper i.1 else hexLower i.1) ++ '}' :: s) =
      some (placeValue 16 (ds.map (·.1.val)), s) := by
  have : ∀ (ds : List (Fin 16 × Bool)) v, hexDigits v ((ds.map fun i => if i.2 then hexUpper i.1 else hexLower i.1) ++ '}' :: s) =
      some ((ds.map (·.1.val)).foldl (fun v d => 16 * v + d) v, s) := by
    intro ds
    induction ds with
    | nil => intro v; simp [hexDigits]
    | cons e ds ih =>
      intro v
      obtain ⟨i, b⟩ := e
      obtain ⟨h1, h2, h3, h4⟩ := hex_val i
      cases b <;> simp [hexDigits, h1, h2, h3, h4] <;> simpa using ih _
  rw [this, placeValue_foldl, Nat.zero_mul, Nat.zero_add]

example : tokens 2 c!"120" = some [.num 120] := C58_decimal 1 [2, 0] 0
example : hexDigits 0 c!"00aF}x" = some (175, c!"x") := C58_hex [(0, false), (0, true), (10, false), (15, true)] c!"x"
end Pest
end Verif
