import Verif.Vlog.Library
import Verif.Hw.NamesProps
import Mathlib.Data.List.Nodup
/-
Module names are identifiers, and every module has its own.
-/
namespace Verif.Vlog
open Verif.Hw

theorem word_append {a b : List Char} (ha : ∀ c ∈ a, wordChar c = true) (hb : ∀ c ∈ b, wordChar c = true) : ∀ c ∈ a ++ b, wordChar c = true := by
  intro c hc
  rcases List.mem_append.mp hc with h | h
  · exact ha c h
  · exact hb c h

theorem word_dec (n : Nat) : ∀ c ∈ dec n, wordChar c = true := by
  intro c hc
  have := dec_digits n c hc
  simp [wordChar, Char.isAlphanum, this]

theorem word_sig (t : Ty) : ∀ c ∈ signature t, wordChar c = true := by
  cases t <;> (simp only [signature]; repeat' apply word_append) <;> first | exact word_dec _ | decide

theorem word_text (k : UnitKind) : ∀ c ∈ k.text, wordChar c = true := by cases k <;> decide

theorem name_shape (op : HwOp) : ∃ r, constructModuleName op = '_' :: '_' :: r := by
  cases op with
  | unit k ins out l => exact ⟨_, rfl⟩
  | fifo t l => exact ⟨_, rfl⟩

theorem name_word (op : HwOp) : ∀ c ∈ constructModuleName op, wordChar c = true := by
  cases op with
  | unit k ins out l =>
    simp only [constructModuleName, base]
    refine word_append (word_append (word_append (word_append ?_ ?_) (word_append (by decide) (word_sig _))) (by decide)) (word_dec _)
    · intro c hc
      rcases List.mem_cons.mp hc with rfl | hc
      · decide
      rcases List.mem_cons.mp hc with rfl | hc
      · decide
      exact word_text k c hc
    · intro c hc
      obtain ⟨t, _, h⟩ := List.mem_flatMap.mp hc
      exact word_append (by decide) (word_sig t) c h
  | fifo t l =>
    simp only [constructModuleName]
    repeat' apply word_append
    all_goals first | exact word_dec _ | decide

/-- No reserved word begins with an underscore. -/
theorem underscore_free (r : List Char) : wordTok ('_' :: r) = .id (String.ofList ('_' :: r)) := by
  have h1 : keywords.lookup ('_' :: r) = none := by
    rw [List.lookup_eq_none_iff]
    intro p hp
    have : ∀ p ∈ keywords, p.1.head? ≠ some '_' := by decide
    have := this p hp
    rw [bne_iff_ne]
    rintro e
    rw [← e] at this
    exact this rfl
  have h2 : reserved.contains ('_' :: r) = false := by
    rw [Bool.eq_false_iff]
    intro h
    rw [List.contains_iff_mem] at h
    have : ∀ p ∈ reserved, p.head? ≠ some '_' := by decide
    exact this _ h rfl
  unfold wordTok
  rw [h1]
  simp only [h2, Bool.false_eq_true, if_false]

theorem name_ident (op : HwOp) : Ident (constructModuleName op) := by
  obtain ⟨r, hr⟩ := name_shape op
  refine ⟨⟨'_', '_' :: r, hr, by decide⟩, name_word op, ?_⟩
  rw [hr]
  exact underscore_free _

theorem created_name (op : HwOp) : (createModule op).name = constructModuleName op := by cases op <;> rfl

theorem convertAll_spec : ∀ (ops : List HwOp) (c : List Module), (c.map Module.name).Nodup →
    ((convertAll c ops).1.map Module.name).Nodup ∧ ∀ m, m ∈ (convertAll c ops).1 ↔ m ∈ c ∨ m ∈ (convertAll c ops).2 := by
  intro ops
  induction ops with
  | nil => intro c h; exact ⟨h, fun m => by simp [convertAll]⟩
  | cons op ops ih =>
    intro c h
    simp only [convertAll]
    unfold findOrCreateModule
    cases hf : c.find? (fun m => m.name = constructModuleName op) with
    | some m =>
      obtain ⟨h1, h2⟩ := ih c h
      refine ⟨h1, fun m' => ?_⟩
      simp only [List.mem_cons]
      rw [h2 m']
      have := (find_name hf).1
      constructor
      · rintro (a | a)
        · exact .inl a
        · exact .inr (.inr a)
      · rintro (a | rfl | a)
        · exact .inl a
        · exact .inl this
        · exact .inr a
    | none =>
      obtain ⟨h1, h2⟩ := ih (createModule op :: c) (by
        rw [List.map_cons, List.nodup_cons]
        refine ⟨?_, h⟩
        rw [List.mem_map]
        rintro ⟨m, hm, e⟩
        have := List.find?_eq_none.mp hf m hm
        rw [created_name] at e
        simp [e] at this)
      refine ⟨h1, fun m' => ?_⟩
      simp only [h2 m', List.mem_cons]
      constructor
      · rintro ((a | a) | a)
        · exact .inr (.inl a)
        · exact .inl a
        · exact .inr (.inr a)
      · rintro (a | a | a)
        · exact .inl (.inr a)
        · exact .inl (.inl a)
        · exact .inr a

theorem ast_name {m : Module} {a : Mod} (h : astOf m = some a) : a.name = String.ofList m.name := by
  unfold astOf at h
  split at h
  · split at h
    · cases h
    · cases h; rfl
  · cases h; split <;> rfl
  · cases h; split <;> rfl
  · cases h

theorem nodup_names {l : List Module} (h : (l.map Module.name).Nodup) : (((l.filterMap astOf)).map Mod.name).Nodup := by
  have : ((l.filterMap astOf).map Mod.name).Sublist (l.map fun m => String.ofList m.name) := by
    clear h
    induction l with
    | nil => simp
    | cons m l ih =>
      cases ha : astOf m with
      | none => rw [List.filterMap_cons_none ha]; exact ih.cons _
      | some a =>
        rw [List.filterMap_cons_some ha, List.map_cons, List.map_cons, ast_name ha]
        exact ih.cons_cons _
  refine this.nodup ?_
  have e : (l.map fun m => String.ofList m.name) = (l.map Module.name).map String.ofList := by rw [List.map_map]; rfl
  rw [e]
  refine h.map ?_
  intro a b hab
  have := congrArg String.toList hab
  simpa using this

/-- No module is defined twice. -/
theorem lib_names {ms : List Module} (h : (ms.map Module.name).Nodup) : ((libMods ms).map Mod.name).Nodup := by
  unfold libMods
  rw [List.map_flatMap, List.nodup_flatMap]
  refine ⟨fun n _ => ?_, ?_⟩
  · exact nodup_names ((List.Sublist.map _ List.filter_sublist).nodup h)
  · have key : ∀ n n', n ≠ n' → (((sectionMods ms n).map Mod.name).Disjoint ((sectionMods ms n').map Mod.name)) := by
      intro n n' hne x hx hx'
      obtain ⟨a, ha, rfl⟩ := List.mem_map.mp hx
      obtain ⟨b, hb, e⟩ := List.mem_map.mp hx'
      obtain ⟨m, hm, h1⟩ := List.mem_filterMap.mp ha
      obtain ⟨m', hm', h2⟩ := List.mem_filterMap.mp hb
      rw [List.mem_filter] at hm hm'
      rw [ast_name h1, ast_name h2] at e
      have e' : m'.name = m.name := by have := congrArg String.toList e; simpa using this
      have := List.inj_on_of_nodup_map h hm'.1 hm.1 e'
      subst this
      have a1 := of_decide_eq_true hm.2
      have a2 := of_decide_eq_true hm'.2
      rw [a1] at a2
      exact hne (Option.some.inj a2)
    have : sectionNames.Nodup := by decide
    exact this.imp fun {a b} hab => key a b hab

end Verif.Vlog
