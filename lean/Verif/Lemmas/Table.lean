import Verif.Lemmas.Cll

/-!
# Helper lemmas: the rafsi table
-/

namespace Jvotci

open Spec

/-- A number for a rafsi, for quick comparison by the kernel. -/
def code (r : Str) : Nat := r.foldl (fun n c => n * 128 + c.toNat) 0

def codes : List Nat := RAFSI_LIST.flatMap (fun e => e.2.map code)

def nodupB : List Nat → Bool
  | [] => true
  | a :: l => l.all (fun b => !(Nat.beq a b)) && nodupB l

/-- The last but one letters of rafsi. -/
def codeKeys : List Nat := (s%"aeioubcdfgjklmnprstvxz'").map Char.toNat

def codeKey (n : Nat) : Nat := n / 128 % 128

/-- No repetitions, checked within the classes of equal key. -/
def bucketsB (l : List Nat) : Bool :=
  l.all (fun n => codeKeys.any (Nat.beq (codeKey n))) &&
  codeKeys.all (fun d => nodupB (l.filter (fun n => Nat.beq (codeKey n) d)))

theorem nodupB_iff {l : List Nat} (h : nodupB l = true) : l.Nodup := by
  induction l with
  | nil => exact List.nodup_nil
  | cons a l ih =>
    rw [nodupB, Bool.and_eq_true, List.all_eq_true] at h
    rw [List.nodup_cons]
    refine ⟨fun hm => ?_, ih h.2⟩
    have := h.1 a hm
    simp at this

theorem bucketsB_iff {l : List Nat} (h : bucketsB l = true) : l.Nodup := by
  rw [bucketsB, Bool.and_eq_true, List.all_eq_true, List.all_eq_true] at h
  rw [List.nodup_iff_count]
  intro a
  by_cases ha : a ∈ l
  · have h1 := h.1 a ha
    rw [List.any_eq_true] at h1
    obtain ⟨d, hd, hk⟩ := h1
    have h2 := nodupB_iff (h.2 d hd)
    rw [List.nodup_iff_count] at h2
    have := h2 a
    rwa [List.count_filter (by exact hk)] at this
  · rw [List.count_eq_zero_of_not_mem ha]; omega

theorem codes_nodup : codes.Nodup := bucketsB_iff (by decide +kernel)

theorem table_shapes : ∀ e ∈ RAFSI_LIST, ∀ r ∈ e.2,
    (rafsiTarmi r = .cvc ∨ rafsiTarmi r = .cvv ∨ rafsiTarmi r = .cvhv ∨ rafsiTarmi r = .ccv) ∧
    isValidRafsi false r = true := by
  have : RAFSI_LIST.all (fun e => e.2.all (fun r =>
      (rafsiTarmi r == .cvc || rafsiTarmi r == .cvv || rafsiTarmi r == .cvhv || rafsiTarmi r == .ccv) &&
      isValidRafsi false r)) = true := by decide +kernel
  intro e he r hr
  rw [List.all_eq_true] at this
  have := this e he
  rw [List.all_eq_true] at this
  have := this r hr
  simp at this
  refine ⟨?_, this.2⟩
  rcases this.1 with ((h | h) | h) | h <;> simp [h]

/-- A list of lists with no repetition at all: what occurs in two members makes them equal. -/
theorem flatMap_unique {α β : Type} {f : α → List β} : ∀ {l : List α}, (l.flatMap f).Nodup →
    ∀ {a a' : α} {b : β}, a ∈ l → a' ∈ l → b ∈ f a → b ∈ f a' → a = a' := by
  intro l
  induction l with
  | nil => intro _ a a' b ha; cases ha
  | cons x l ih =>
    intro h a a' b ha ha' hb hb'
    rw [List.flatMap_cons, List.nodup_append] at h
    obtain ⟨-, h2, h3⟩ := h
    rcases List.mem_cons.1 ha with h4 | h4 <;> rcases List.mem_cons.1 ha' with h5 | h5
    · rw [h4, h5]
    · subst h4; exact absurd rfl (h3 b hb b (List.mem_flatMap.2 ⟨a', h5, hb'⟩))
    · subst h5; exact absurd rfl (h3 b hb' b (List.mem_flatMap.2 ⟨a, h4, hb⟩))
    · exact ih h2 h4 h5 hb hb'

theorem table_unique {e e' : Str × List Str} {r : Str} (he : e ∈ RAFSI_LIST) (he' : e' ∈ RAFSI_LIST)
    (h : r ∈ e.2) (h' : r ∈ e'.2) : e = e' :=
  flatMap_unique codes_nodup (b := code r) he he' (List.mem_map_of_mem h) (List.mem_map_of_mem h')

theorem searchSelrafsi_table {e : Str × List Str} {r : Str} (he : e ∈ RAFSI_LIST) (h : r ∈ e.2) :
    searchSelrafsi r = some e.1 := by
  have hc : ¬ (r ≠ s%"brod" ∧ r.length = 4 ∧ (!r.contains '\'') = true) := by
    rintro ⟨-, h4, hq⟩
    rcases (table_shapes e he r h).1 with hs | hs | hs | hs
    · obtain ⟨a, b, c, rfl, -⟩ := tarmi_cvc.1 hs; simp at h4
    · obtain ⟨a, b, c, rfl, -⟩ := tarmi_cvv.1 hs; simp at h4
    · obtain ⟨a, b, c, rfl, -⟩ := tarmi_cvhv.1 hs; simp at hq
    · obtain ⟨a, b, c, rfl, -⟩ := tarmi_ccv.1 hs; simp at h4
  unfold searchSelrafsi
  dsimp only
  rw [if_neg hc]
  simp only [List.find?_nil]
  cases hf : RAFSI_LIST.find? (fun e => e.2.contains r) with
  | none =>
    rw [List.find?_eq_none] at hf
    exact absurd (List.contains_iff_mem.2 h) (hf e he)
  | some e' =>
    have h1 := List.mem_of_find?_eq_some hf
    have h2 : e'.2.contains r = true := by simpa using List.find?_some hf
    rw [table_unique h1 he (List.contains_iff_mem.1 h2) h]
    rfl

end Jvotci
