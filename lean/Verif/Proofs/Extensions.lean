import Verif.Model.Extensions
import Verif.Spec.Extensions

/-! # Lemmas on extensions -/

namespace Webparse
open Spec

variable {ι : Type} [DecidableEq ι] {V : ι → Type}

/-- Each box has the type of its key, and no key comes twice. -/
def AnyMap.WF (m : AnyMap V) : Prop := (∀ e ∈ m, e.2.1 = e.1) ∧ (m.map (·.1)).Nodup

/-- The value of type `i` in a map. -/
def AnyMap.val (m : AnyMap V) (i : ι) : Option (V i) := (m.get i).bind fun b => b.downcast i

theorem ext_val_nil (i : ι) : AnyMap.val ([] : AnyMap V) i = none := rfl

theorem ext_val_cons (e : ι × AnyBox V) (m : AnyMap V) (i : ι) : AnyMap.val (e :: m) i = if e.1 = i then e.2.downcast i else m.val i := by
  unfold AnyMap.val AnyMap.get
  rw [List.find?_cons]
  by_cases h : e.1 = i <;> simp [h]

theorem ext_mem_insert_keys (m : AnyMap V) (k : ι) (b : AnyBox V) (i : ι) : i ∈ (m.insert k b).map (·.1) ↔ i = k ∨ i ∈ m.map (·.1) := by
  induction m with
  | nil => simp [AnyMap.insert]
  | cons e r ih =>
    unfold AnyMap.insert
    split
    · rename_i h; simp [h]
    · simp only [List.map_cons, List.mem_cons, ih]
      constructor <;> (rintro (h | h | h) <;> simp [h])

theorem ext_mem_insert (m : AnyMap V) (k : ι) (b : AnyBox V) (e : ι × AnyBox V) (h : e ∈ m.insert k b) : e = (k, b) ∨ e ∈ m := by
  induction m with
  | nil => simpa [AnyMap.insert] using h
  | cons x r ih =>
    unfold AnyMap.insert at h
    split at h
    · rcases List.mem_cons.mp h with h | h <;> simp [h]
    · rcases List.mem_cons.mp h with h | h
      · simp [h]
      · rcases ih h with h | h <;> simp [h]

theorem ext_insert_wf {m : AnyMap V} (hm : m.WF) (k : ι) (b : AnyBox V) (hb : b.1 = k) : (m.insert k b).WF := by
  constructor
  · intro e he
    rcases ext_mem_insert m k b e he with rfl | h
    · exact hb
    · exact hm.1 e h
  · obtain ⟨-, hn⟩ := hm
    induction m with
    | nil => simp [AnyMap.insert]
    | cons x r ih =>
      rw [List.map_cons, List.nodup_cons] at hn
      unfold AnyMap.insert
      split
      · rename_i h; rw [List.map_cons, List.nodup_cons]; exact h ▸ hn
      · rename_i h
        rw [List.map_cons, List.nodup_cons]
        refine ⟨fun hx => ?_, ih hn.2⟩
        rcases (ext_mem_insert_keys r k b x.1).mp hx with h' | h'
        · exact h h'
        · exact hn.1 h'

theorem ext_insert_val (m : AnyMap V) (k : ι) (b : AnyBox V) (i : ι) : (m.insert k b).val i = if k = i then b.downcast i else m.val i := by
  induction m with
  | nil => rw [AnyMap.insert, ext_val_cons, ext_val_nil]
  | cons e r ih =>
    unfold AnyMap.insert
    split
    · rename_i h
      rw [ext_val_cons, ext_val_cons]
      by_cases hk : k = i
      · simp [hk]
      · simp [hk, h]
    · rename_i h
      rw [ext_val_cons, ext_val_cons, ih]
      by_cases hk : k = i
      · subst hk; simp [h]
      · simp [hk]

theorem ext_mem_remove {m : AnyMap V} {k : ι} {e : ι × AnyBox V} (h : e ∈ m.remove k) : e ∈ m := by
  induction m with
  | nil => simp [AnyMap.remove] at h
  | cons x r ih =>
    unfold AnyMap.remove at h
    split at h
    · simp [h]
    · rcases List.mem_cons.mp h with h | h
      · simp [h]
      · simp [ih h]

theorem ext_remove_wf {m : AnyMap V} (hm : m.WF) (k : ι) : (m.remove k).WF := by
  refine ⟨fun e he => hm.1 e (ext_mem_remove he), ?_⟩
  obtain ⟨-, hn⟩ := hm
  induction m with
  | nil => exact hn
  | cons x r ih =>
    rw [List.map_cons, List.nodup_cons] at hn
    unfold AnyMap.remove
    split
    · exact hn.2
    · rw [List.map_cons, List.nodup_cons]
      refine ⟨fun hx => ?_, ih hn.2⟩
      obtain ⟨e, he, h⟩ := List.mem_map.mp hx
      exact hn.1 (List.mem_map.mpr ⟨e, ext_mem_remove he, h⟩)

theorem ext_val_absent {m : AnyMap V} {i : ι} (h : i ∉ m.map (·.1)) : m.val i = none := by
  induction m with
  | nil => rfl
  | cons e r ih =>
    rw [List.map_cons, List.mem_cons, not_or] at h
    rw [ext_val_cons, if_neg (fun e => h.1 e.symm), ih h.2]

theorem ext_remove_val {m : AnyMap V} (hm : (m.map (·.1)).Nodup) (k i : ι) : (m.remove k).val i = if k = i then none else m.val i := by
  induction m with
  | nil => simp [AnyMap.remove, ext_val_nil]
  | cons e r ih =>
    rw [List.map_cons, List.nodup_cons] at hm
    unfold AnyMap.remove
    split
    · rename_i h
      rw [ext_val_cons]
      by_cases hk : k = i
      · subst hk
        rw [if_pos rfl, ext_val_absent (h ▸ hm.1)]
      · rw [if_neg hk, if_neg (fun e => hk (h.symm.trans e))]
    · rename_i h
      rw [ext_val_cons, ext_val_cons, ih hm.2]
      by_cases hk : k = i
      · subst hk; simp [h]
      · simp [hk]

theorem ext_foldl_insert {o : AnyMap V} : ∀ {m : AnyMap V}, m.WF → o.WF →
    (o.foldl (fun m e => m.insert e.1 e.2) m).WF ∧
    ∀ i, (o.foldl (fun m e => m.insert e.1 e.2) m).val i = (o.val i).orElse fun _ => m.val i := by
  induction o with
  | nil => intro m hm _; exact ⟨hm, fun i => by rw [ext_val_nil]; rfl⟩
  | cons e r ih =>
    intro m hm ho
    have hr : AnyMap.WF r := ⟨fun x hx => ho.1 x (List.mem_cons_of_mem _ hx), (List.nodup_cons.mp ho.2).2⟩
    have he : e.2.1 = e.1 := ho.1 e (List.mem_cons_self)
    obtain ⟨h1, h2⟩ := ih (ext_insert_wf hm e.1 e.2 he) hr
    refine ⟨h1, fun i => ?_⟩
    rw [List.foldl_cons, h2, ext_insert_val, ext_val_cons]
    by_cases hi : e.1 = i
    · subst hi
      rw [if_pos rfl, if_pos rfl, ext_val_absent (List.nodup_cons.mp ho.2).1]
      unfold AnyBox.downcast
      rw [dif_pos he]
      rfl
    · rw [if_neg hi, if_neg hi]

/-- The contents of extensions. -/
theorem ext_get_eq (x : Extensions V) (i : ι) : x.get i = (x.map.getD []).val i := by
  cases x with
  | mk map => cases map <;> rfl

theorem ext_downcast_self (i : ι) (v : V i) (j : ι) : AnyBox.downcast (⟨i, v⟩ : AnyBox V) j = if h : i = j then some (h ▸ v) else none := rfl

theorem ext_set_apply (m : TypeMap V) (i : ι) (x : Option (V i)) (j : ι) : m.set i x j = if h : i = j then h ▸ x else m j := rfl

theorem ext_insert_get {x : Extensions V} {c : TypeMap V} (h : ∀ j, x.get j = c j) (i : ι) (v : V i) (j : ι) :
    (x.insert i v).2.get j = c.set i (some v) j := by
  rw [ext_get_eq, Extensions.insert, Option.getD_some, ext_insert_val, ext_set_apply, ext_downcast_self, ← h, ext_get_eq]
  by_cases hi : i = j
  · subst hi; simp
  · simp [hi]

theorem ext_run_spec (h : History V) : (h.run.map.getD []).WF ∧ ∀ i, h.run.get i = h.contents i := by
  induction h with
  | new => exact ⟨⟨fun e he => by simp [History.run, Extensions.new] at he, List.nodup_nil⟩, fun i => rfl⟩
  | insert h i v ih => exact ⟨ext_insert_wf ih.1 i _ rfl, ext_insert_get ih.2 i v⟩
  | modify h i f ih =>
    have e : ∀ v, h.run.get i = some v → h.run.modify i f = (h.run.insert i (f v)).2 := by
      intro v hv
      unfold Extensions.modify Extensions.insert
      unfold Extensions.get at hv
      split
      · rename_i hm; rw [hm] at hv; simp at hv
      · rename_i m hm
        rw [hm] at hv
        simp only [Option.bind_some] at hv
        split
        · rename_i hg; rw [hg] at hv; simp at hv
        · rename_i b hg
          rw [hg] at hv
          simp only [Option.bind_some] at hv
          rw [hv]
          simp [hm]
    have e' : h.run.get i = none → h.run.modify i f = History.run h := by
      intro hv
      unfold Extensions.modify
      unfold Extensions.get at hv
      split
      · rfl
      · rename_i m hm
        rw [hm] at hv
        simp only [Option.bind_some] at hv
        split
        · rfl
        · rename_i b hg
          rw [hg] at hv
          simp only [Option.bind_some] at hv
          rw [hv]
    rw [Spec.History.run, History.contents]
    cases hc : h.run.get i with
    | none =>
      rw [e' hc]
      refine ⟨ih.1, fun j => ?_⟩
      rw [ext_set_apply]
      by_cases hi : i = j
      · subst hi; rw [hc, ← ih.2, hc]; simp
      · rw [dif_neg hi, ih.2]
    | some v =>
      rw [e v hc]
      refine ⟨ext_insert_wf ih.1 i _ rfl, fun j => ?_⟩
      rw [ext_insert_get ih.2, ← ih.2 i, hc]
      rfl
  | remove h i ih =>
    rw [Spec.History.run, History.contents]
    have e : ((h.run.remove i).2).map.getD [] = (h.run.map.getD []).remove i := by
      unfold Extensions.remove
      split <;> rename_i hm <;> rw [hm] <;> rfl
    rw [e]
    refine ⟨ext_remove_wf ih.1 i, fun j => ?_⟩
    rw [ext_get_eq, e, ext_remove_val ih.1.2, ext_set_apply, ← ext_get_eq, ih.2]
    by_cases hi : i = j
    · subst hi; simp
    · simp [hi]
  | clear h ih =>
    rw [Spec.History.run, History.contents]
    have e : (h.run.clear).map.getD [] = [] := by
      unfold Extensions.clear
      split
      · rename_i hm; rw [hm]; rfl
      · rfl
    rw [e]
    exact ⟨⟨fun e he => by simp at he, List.nodup_nil⟩, fun i => by rw [ext_get_eq, e]; rfl⟩
  | extend h o ih iho =>
    rw [Spec.History.run, History.contents]
    unfold Extensions.extend
    have g := iho.2
    have g' := ih.2
    simp only [ext_get_eq] at g g'
    split
    · rename_i hm
      refine ⟨ih.1, fun i => ?_⟩
      rw [hm] at g
      simp only
      rw [← g i, ih.2]
      rfl
    · rename_i m hm
      rw [hm] at g
      simp only [Option.getD_some] at g
      have iho1 := iho.1
      rw [hm] at iho1
      split
      · rename_i m' hm'
        rw [hm'] at g'
        have ih1 := ih.1
        rw [hm'] at ih1
        obtain ⟨w, w'⟩ := ext_foldl_insert ih1 iho1
        refine ⟨w, fun i => ?_⟩
        simp only
        rw [ext_get_eq, ← g i, ← g' i]
        exact w' i
      · rename_i hm'
        rw [hm'] at g'
        refine ⟨iho1, fun i => ?_⟩
        simp only
        rw [ext_get_eq, ← g i, ← g' i]
        simp [ext_val_nil]

theorem ext_val_isSome {m : AnyMap V} (hm : m.WF) (i : ι) : i ∈ m.map (·.1) ↔ (m.val i).isSome = true := by
  induction m with
  | nil => simp [ext_val_nil]
  | cons e r ih =>
    have hr : AnyMap.WF r := ⟨fun x hx => hm.1 x (List.mem_cons_of_mem _ hx), (List.nodup_cons.mp hm.2).2⟩
    rw [ext_val_cons, List.map_cons, List.mem_cons]
    by_cases h : e.1 = i
    · have := hm.1 e List.mem_cons_self
      simp [AnyBox.downcast, this, h]
    · rw [if_neg h, ← ih hr]
      constructor
      · rintro (h' | h')
        · exact absurd h'.symm h
        · exact h'
      · exact .inr

end Webparse
