import Verif.Spec.Faults
import Verif.Proof.Split

/-! # The first thing that is wrong (C72) -/

namespace Verif
namespace Src
open Spec

/-- `r` fails with the first fault of `cs`, if there is one -/
def Tells (unq : Unquote) {α : Type} (r : Result α) (cs : List Check) : Prop :=
  match r with
  | .ok _ => firstFault unq cs = none
  | .error e => ∃ x, e = .err x ∧ firstFault unq cs = some x

section
variable {unq : Unquote} {α β : Type}

theorem tells_pure (x : α) : Tells unq (.ok x) [] := rfl

theorem firstFault_append (as bs : List Check) :
    firstFault unq (as ++ bs) = (firstFault unq as).or (firstFault unq bs) := by
  simp [firstFault, List.findSome?_append]

theorem Tells.bind {r : Result α} {f : α → Result β} {as bs : List Check} (h : Tells unq r as)
    (hf : ∀ x, r = .ok x → Tells unq (f x) bs) : Tells unq (r >>= f) (as ++ bs) := by
  cases r with
  | error e =>
    obtain ⟨x, rfl, h⟩ := h
    exact ⟨x, rfl, by rw [firstFault_append, h]; rfl⟩
  | ok x =>
    have h : firstFault unq as = none := h
    have := hf x rfl
    unfold Tells at this ⊢
    rw [firstFault_append, h]
    exact this

theorem Tells.last {r : Result α} {f : α → β} {as : List Check} (h : Tells unq r as) :
    Tells unq (r >>= fun x => pure (f x)) as := by
  have := h.bind (f := fun x => pure (f x)) (bs := []) fun x _ => tells_pure (f x)
  rwa [List.append_nil] at this

theorem tells_unquoted (t : Str) : Tells unq (unquoted unq t) [.unquote t] := by
  unfold unquoted
  cases h : unq t with
  | ok c => show firstFault unq _ = none; simp [firstFault, Check.fault, h]
  | error e => exact ⟨_, rfl, by simp [firstFault, Check.fault, h]⟩

theorem tells_read (t : Str) : Tells unq (read unq t) (wordChecks t) := by
  cases t with
  | nil => exact tells_pure _
  | cons c t =>
    simp only [read, wordChecks]
    by_cases h : c = '"' ∨ c = '\'' ∨ c = '`'
    · rw [if_pos h, if_pos h]; exact tells_unquoted _
    · rw [if_neg h, if_neg h]; exact tells_pure _

theorem tells_label (v : Value) : Tells unq (v.readLabel unq) v.labelChecks := by
  cases v with
  | quoted t => exact tells_unquoted _
  | bare t => exact tells_read _

theorem tells_env (v : Value) : Tells unq (v.readEnv unq) v.envChecks := by
  cases v with
  | quoted t => exact tells_unquoted _
  | bare t => exact tells_pure _

theorem tells_digest (i : Str) : Tells unq (checkDigest i) [.digest i] := by
  unfold checkDigest
  by_cases h : DigestOK (ImageRef.parse i)
  · rw [if_pos h]; show firstFault unq _ = none; simp [firstFault, Check.fault, h]
  · rw [if_neg h]; exact ⟨_, rfl, by simp [firstFault, Check.fault, h]⟩

theorem tells_flags (fs : List Flag) : ∀ p, Tells unq (evalFlags unq p fs) (fs.flatMap (wordChecks ·.value)) := by
  induction fs with
  | nil => intro p; exact tells_pure _
  | cons f fs ih =>
    intro p
    exact Tells.bind (tells_read f.value).last fun x _ => (ih _).last

theorem tells_args (fs : List Arg) : ∀ p, Tells unq (evalArgs unq p fs) (fs.flatMap (wordChecks ·.value)) := by
  induction fs with
  | nil => intro p; exact tells_pure _
  | cons f fs ih =>
    intro p
    exact Tells.bind (tells_read f.value).last fun x _ => (ih _).last

theorem tells_pairs {ev : Nat → Pair → Result α} {cs : Pair → List Check} (h : ∀ p f, Tells unq (ev p f) (cs f))
    (fs : List Pair) : ∀ p, Tells unq (evalPairs ev p fs) (fs.flatMap cs) := by
  induction fs with
  | nil => intro p; exact tells_pure _
  | cons f fs ih =>
    intro p
    exact Tells.bind (h p f) fun x _ => (ih _).last

theorem tells_elems (fs : List Elem) : ∀ p, Tells unq (evalElems unq p fs) (fs.map fun e => .unquote e.value) := by
  induction fs with
  | nil => intro p; exact tells_pure _
  | cons f fs ih =>
    intro p
    exact Tells.bind (as := [.unquote f.value]) (tells_unquoted f.value).last fun x _ => (ih _).last

theorem tells_array (a : Array) (p : Nat) : Tells unq (a.eval unq p) a.checks := by
  cases a with
  | empty g => exact tells_pure _
  | full g v es c g' =>
    exact Tells.bind (as := [.unquote v]) (tells_unquoted v) fun x _ => (tells_elems es _).last

theorem tells_gap (g : Str) {r : Result α} {cs : List Check} (h : Tells unq r cs) :
    Tells unq (if '#' ∈ g then .error (.err (.generic (.unexpectedToken .comment))) else r) (.gap g :: cs) := by
  by_cases hg : '#' ∈ g
  · rw [if_pos hg]; exact ⟨_, rfl, by simp [firstFault, Check.fault, hg]⟩
  · rw [if_neg hg]
    have : firstFault unq (.gap g :: cs) = firstFault unq cs := by simp [firstFault, Check.fault, hg]
    unfold Tells
    rw [this]
    exact h

theorem tells_item (i : Item) (p : Nat) : Tells unq (i.eval unq p) i.checks := by
  cases i with
  | blank => exact tells_pure _
  | comment t => exact tells_pure _
  | «from» kw fs g i a =>
    exact Tells.bind (tells_flags fs _) fun x _ => (tells_digest i).last
  | arg kw g n v =>
    cases v with
    | none => exact tells_pure _
    | some v => exact (tells_read v.text).last
  | label kw ps t =>
    exact (tells_pairs (fun p f => Tells.bind (tells_label f.name) fun x _ => (tells_label f.value).last) ps _).last
  | label1 kw g n g' v => exact Tells.bind (tells_label n) fun x _ => (tells_label v).last
  | shell k kw g s => exact tells_gap g (tells_pure _)
  | exec k kw g a => exact tells_gap g (tells_array a _).last
  | copy kw fs ss d =>
    exact Tells.bind (tells_flags fs _) fun x _ => Tells.bind (tells_args ss _) fun y _ =>
      (Tells.last (tells_read d.value).last)
  | env kw ps t => exact (tells_pairs (fun p f => (tells_env f.value).last) ps _).last
  | env1 kw g n g' s => exact tells_pure _
  | env1q kw g n g' v => exact (tells_unquoted v).last
  | misc w a => exact tells_pure _

theorem tells_doc (ms : List (Str × Line)) : ∀ (l : Line) (p : Nat), Tells unq (evalDoc unq p l ms) (docChecks l ms) := by
  induction ms with
  | nil =>
    intro l p
    have := (tells_item (unq := unq) l.item (p + blen l.indent)).last (f := Option.toList)
    rw [docChecks, List.flatMap_nil, List.append_nil]
    exact this
  | cons m ms ih =>
    intro l p
    exact Tells.bind (tells_item l.item _) fun x _ => (ih m.2 _).last

/-- the first line that is wrong -/
theorem doc_first (ms : List (Str × Line)) : ∀ (l : Line) (p : Nat) {e : Fault}, DocFits l ms →
    evalDoc unq p l ms = .error e →
    ∃ ps l' ms' js, docText l ms = preText ps ++ docText l' ms' ∧ PreFits ps (docText l' ms') ∧ DocFits l' ms' ∧
      evalPre unq p ps = .ok js ∧ l'.item.eval unq (p + blen (preText ps) + blen l'.indent) = .error e := by
  induction ms with
  | nil =>
    intro l p e hf he
    refine ⟨[], l, [], [], rfl, trivial, hf, rfl, ?_⟩
    have he : (l.item.eval unq (p + blen l.indent) >>= _) = _ := he
    cases h : l.item.eval unq (p + blen l.indent) with
    | error e' => rw [h] at he; cases he; exact h
    | ok o => rw [h] at he; cases he
  | cons m ms ih =>
    obtain ⟨n, m⟩ := m
    intro l p e hf he
    have he : (l.item.eval unq (p + blen l.indent) >>= fun i => evalDoc unq (p + blen l.text + blen n) m ms >>= _) = _ := he
    cases h : l.item.eval unq (p + blen l.indent) with
    | error e' =>
      rw [h] at he
      cases he
      exact ⟨[], l, (n, m) :: ms, [], rfl, trivial, hf, rfl, h⟩
    | ok o =>
      rw [h] at he
      cases h2 : evalDoc unq (p + blen l.text + blen n) m ms with
      | ok is => rw [h2] at he; cases he
      | error e' =>
        rw [h2] at he
        cases he
        obtain ⟨ps, l', ms', js, g1, g2, g3, g4, g5⟩ := ih m _ hf.2.2 h2
        refine ⟨(l, n) :: ps, l', ms', o.toList ++ js, ?_, ⟨?_, ?_, g2⟩, g3, ?_, ?_⟩
        · simp [docText, preText, g1]
        · rw [← g1]; exact hf.1
        · rw [← g1]; exact hf.2.1
        · simp [evalPre, h, g4, ok_bind, pure, Except.pure]
        · rw [← g5]
          simp only [preText, blen_append]
          congr 1
          omega

theorem pre_spans (ps : List (Line × Str)) {z : Str} : ∀ (p : Nat) (js : List Instruction), PreFits ps z →
    evalPre unq p ps = .ok js → ∀ x ∈ js, x.span.stop < p + blen (preText ps) := by
  induction ps with
  | nil => intro p js _ h x hx; cases h; cases hx
  | cons a ps ih =>
    obtain ⟨l, n⟩ := a
    intro p js hf h x hx
    obtain ⟨o, h1, h⟩ := bind_some h
    obtain ⟨is, h2, h⟩ := bind_some h
    cases h
    have hn : 0 < blen n := by
      refine blen_pos ?_
      rcases hf.2.1 with rfl | rfl | ⟨rfl, -⟩ <;> simp
    simp only [preText, blen_append, Line.text]
    rcases List.mem_append.1 hx with hx | hx
    · cases o with
      | none => cases hx
      | some y =>
        cases List.mem_singleton.1 hx
        rw [(item_at h1).1]
        simp only []
        omega
    · have := ih _ _ hf.2.2 h2 x hx
      simp only [Line.text, blen_append] at this
      omega

end
end Src
end Verif
