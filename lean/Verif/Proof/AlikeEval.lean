import Verif.Proof.AlikeItem
import Verif.Proof.Relayout
import Verif.Spec.Splice

/-!
# Lines that look alike: what they stand for
-/

namespace Verif
namespace Src
open Spec

local notation "A" => AlikeText
local notation "Q" => (fun x y : Str => x = y)

theorem hQ (x y : Str) (h : x = y) : A x y := h ▸ AlikeText.rfl' x

/-! ## the same fields, the same value -/

theorem flag_same {unq : Unquote} {f f' : Flag} (h : FlagR Q f f') (p : Nat) : f'.eval unq p = f.eval unq p := by
  obtain ⟨g, n, v⟩ := f
  obtain ⟨g', n', v'⟩ := f'
  obtain ⟨h1, h2, h3⟩ := h
  cases (h2 : n = n'); cases (h3 : v = v')
  simp only [Flag.eval, Flag.body, AlikeText.blen h1]

theorem flags_same {unq : Unquote} {fs fs' : List Flag} (h : Each (FlagR Q) fs fs') (p : Nat) :
    evalFlags unq p fs' = evalFlags unq p fs := by
  induction h generalizing p with
  | nil => rfl
  | cons h1 _ ih => simp only [evalFlags, flag_same h1, (h1.text hQ).blen, ih]

theorem arg_same {unq : Unquote} {f f' : Arg} (h : ArgR Q f f') (p : Nat) : f'.eval unq p = f.eval unq p := by
  obtain ⟨g, v⟩ := f
  obtain ⟨g', v'⟩ := f'
  obtain ⟨h1, h2⟩ := h
  cases (h2 : v = v')
  simp only [Arg.eval, AlikeText.blen h1]

theorem args_same {unq : Unquote} {fs fs' : List Arg} (h : Each (ArgR Q) fs fs') (p : Nat) :
    evalArgs unq p fs' = evalArgs unq p fs := by
  induction h generalizing p with
  | nil => rfl
  | cons h1 _ ih => simp only [evalArgs, arg_same h1, (h1.text hQ).blen, ih]

theorem value_same {v v' : Value} (h : ValueR Q v v') : v' = v := by
  cases h with
  | quoted h => rw [show _ = _ from h]
  | bare h => rw [show _ = _ from h]

theorem label_same {unq : Unquote} {f f' : Pair} (h : PairR Q f f') (p : Nat) :
    f'.evalLabel unq p = f.evalLabel unq p := by
  obtain ⟨g, n, v⟩ := f
  obtain ⟨g', n', v'⟩ := f'
  obtain ⟨h1, h2, h3⟩ := h
  cases value_same h2; cases value_same h3
  simp only [Pair.evalLabel, Pair.body, Pair.nameSpan, Pair.valueSpan, AlikeText.blen h1]

theorem env_same {unq : Unquote} {f f' : Pair} (h : PairR Q f f') (p : Nat) :
    f'.evalEnv unq p = f.evalEnv unq p := by
  obtain ⟨g, n, v⟩ := f
  obtain ⟨g', n', v'⟩ := f'
  obtain ⟨h1, h2, h3⟩ := h
  cases value_same h2; cases value_same h3
  simp only [Pair.evalEnv, Pair.body, Pair.nameSpan, Pair.valueSpan, AlikeText.blen h1]

theorem pairs_same {α : Type} {ev : Nat → Pair → Result α}
    (hev : ∀ {f f' : Pair}, PairR Q f f' → ∀ p, ev p f' = ev p f)
    {fs fs' : List Pair} (h : Each (PairR Q) fs fs') (p : Nat) : evalPairs ev p fs' = evalPairs ev p fs := by
  induction h generalizing p with
  | nil => rfl
  | cons h1 _ ih => simp only [evalPairs, hev h1, (h1.text hQ).blen, ih]

theorem shell_same {s s' : Shell} (h : ShellR Q s s') (p : Nat) : s'.components p = s.components p := by
  induction h generalizing p with
  | last h => rw [show _ = _ from h]
  | lastComment h1 h2 h3 => cases (show _ = _ from h2); simp only [Shell.components, h1.blen]
  | more h1 h2 h3 _ ih => cases (show _ = _ from h1); simp only [Shell.components, h2.blen, h3.blen, ih]
  | comment h1 h2 h3 _ ih =>
    cases (show _ = _ from h2); simp only [Shell.components, h1.blen, h3.blen, ih]

theorem string_same {s s' : Shell} (h : ShellR Q s s') (p : Nat) : s'.string p = s.string p := by
  simp only [Shell.string, shell_same h, (h.text hQ).blen]

theorem elem_same {unq : Unquote} {f f' : Elem} (h : ElemR Q f f') (p : Nat) : f'.eval unq p = f.eval unq p := by
  obtain ⟨g, k, v⟩ := f
  obtain ⟨g', k', v'⟩ := f'
  obtain ⟨h1, h2, h3⟩ := h
  cases (h3 : v = v')
  simp only [Elem.eval, AlikeText.blen h1, AlikeText.blen h2]

theorem elems_same {unq : Unquote} {fs fs' : List Elem} (h : Each (ElemR Q) fs fs') (p : Nat) :
    evalElems unq p fs' = evalElems unq p fs := by
  induction h generalizing p with
  | nil => rfl
  | cons h1 _ ih => simp only [evalElems, elem_same h1, (h1.text hQ).blen, ih]

theorem array_same {unq : Unquote} {a a' : Array} (h : ArrayR Q a a') (p : Nat) : a'.eval unq p = a.eval unq p := by
  cases h with
  | empty h => rfl
  | full h1 h2 h3 h4 => cases (show _ = _ from h2); simp only [Array.eval, h1.blen, elems_same h3]

theorem hash_same {g g' : Str} (h : A g g') : ('#' ∈ g') = ('#' ∈ g) :=
  propext (h.mem (by decide)).symm

theorem alias_same {a a' : Option AliasText} (h : AliasR Q a a') (p : Nat) :
    a'.map (·.name_at p) = a.map (·.name_at p) := by
  cases h with
  | none => rfl
  | @some a a' k1 k2 k3 k4 =>
    have k4 : a.name = a'.name := k4
    simp only [Option.map_some, AliasText.name_at, k1.blen, k2.blen, k3.blen, k4]

theorem item_same {unq : Unquote} {i i' : Item} (h : ItemR Q i i') (p : Nat) : i'.eval unq p = i.eval unq p := by
  have ht := (h.text hQ).blen
  cases h with
  | blank => rfl
  | comment h => rfl
  | «from» h1 h2 h3 h4 h5 =>
    cases (show _ = _ from h4)
    have hf := (flagsR_text hQ h2).blen
    simp only [Item.eval, ht, h1.blen, hf, h3.blen, flags_same h2, alias_same h5]
  | arg h1 h2 h3 h4 =>
    cases (show _ = _ from h3)
    cases h4 with
    | none => simp only [Item.eval, ht, h1.blen, h2.blen]
    | some h => cases value_same h; simp only [Item.eval, ht, h1.blen, h2.blen]
  | label h1 h2 h3 => simp only [Item.eval, ht, h1.blen, pairs_same label_same h2]
  | label1 h1 h2 h3 h4 h5 =>
    cases value_same h3; cases value_same h5
    simp only [Item.eval, ht, h1.blen, h2.blen, h4.blen]
  | shell h1 h2 h3 => simp only [Item.eval, ht, h1.blen, h2.blen, string_same h3, hash_same h2]
  | exec h1 h2 h3 =>
    simp only [Item.eval, ht, h1.blen, h2.blen, array_same h3, hash_same h2, (h3.text hQ).blen]
  | copy h1 h2 h3 h4 =>
    simp only [Item.eval, ht, h1.blen, (flagsR_text hQ h2).blen, (argsR_text hQ h3).blen, flags_same h2,
      args_same h3, arg_same h4]
  | env h1 h2 h3 => simp only [Item.eval, ht, h1.blen, pairs_same env_same h2]
  | env1 h1 h2 h3 h4 h5 =>
    cases (show _ = _ from h3)
    simp only [Item.eval, ht, h1.blen, h2.blen, h4.blen, string_same h5, (h5.text hQ).blen]
  | env1q h1 h2 h3 h4 h5 =>
    cases (show _ = _ from h3); cases (show _ = _ from h5)
    simp only [Item.eval, ht, h1.blen, h2.blen, h4.blen]
  | misc h1 h2 =>
    cases (show _ = _ from h1)
    simp only [Item.eval, ht, string_same h2]

end Src
end Verif
