import Verif.Spec.Silo
import Verif.Lemmas.Matset4
/-
Lemmas about the silo arrays: integer keyed maps, and the loop over the zones.
-/
namespace Conduit.Matset
open Conduit.O2M (rd wr)
variable {α β : Type}

/-! ### integer keyed maps -/

def ISorted (m : List (Int × β)) : Prop := m.Pairwise fun a b => a.1 < b.1

theorem iget_cons (k k' : Int) (v : β) (m : List (Int × β)) : iget ((k', v) :: m) k = if k' = k then some v else iget m k := by
  unfold iget
  by_cases h : k' = k <;> simp [h]

theorem mem_iset (k : Int) (v : β) (m : List (Int × β)) (x : Int × β) : x ∈ iset k v m → x = (k, v) ∨ x ∈ m := by
  induction m with
  | nil => intro h; simpa [iset] using h
  | cons a m ih =>
    obtain ⟨k', v'⟩ := a
    unfold iset
    split
    · intro h
      rcases List.mem_cons.mp h with h | h
      · exact .inl h
      · exact .inr (List.mem_cons_of_mem _ h)
    · split
      · intro h
        rcases List.mem_cons.mp h with h | h
        · exact .inl h
        · exact .inr h
      · intro h
        rcases List.mem_cons.mp h with h | h
        · exact .inr (h ▸ List.mem_cons_self)
        · rcases ih h with h | h
          · exact .inl h
          · exact .inr (List.mem_cons_of_mem _ h)

theorem iset_sorted (k : Int) (v : β) {m : List (Int × β)} (h : ISorted m) : ISorted (iset k v m) := by
  induction m with
  | nil => exact List.pairwise_singleton _ _
  | cons a m ih =>
    obtain ⟨k', v'⟩ := a
    obtain ⟨h1, h2⟩ := List.pairwise_cons.mp h
    unfold iset
    split
    · rename_i e; subst e
      exact List.pairwise_cons.mpr ⟨h1, h2⟩
    · split
      · rename_i _ hlt
        refine List.pairwise_cons.mpr ⟨?_, h⟩
        intro b hb
        rcases List.mem_cons.mp hb with rfl | hb
        · exact hlt
        · exact Int.lt_trans hlt (h1 b hb)
      · rename_i hne hnl
        refine List.pairwise_cons.mpr ⟨?_, ih h2⟩
        intro b hb
        rcases mem_iset k v m b hb with rfl | hb
        · simp only; omega
        · exact h1 b hb

theorem iget_iset (k : Int) (v : β) (m : List (Int × β)) (j : Int) : iget (iset k v m) j = if k = j then some v else iget m j := by
  induction m with
  | nil => simp [iset, iget_cons]
  | cons a m ih =>
    obtain ⟨k', v'⟩ := a
    unfold iset
    split
    · rename_i e; subst e
      rw [iget_cons, iget_cons]; split <;> rfl
    · split
      · rw [iget_cons]
      · rename_i hne hnl
        rw [iget_cons, iget_cons, ih]
        by_cases h : k' = j
        · simp [h]; intro hh; omega
        · simp [h]

theorem mem_iff_iget {m : List (Int × β)} (h : ISorted m) (k : Int) (v : β) : (k, v) ∈ m ↔ iget m k = some v := by
  induction m with
  | nil => simp [iget]
  | cons a m ih =>
    obtain ⟨k', v'⟩ := a
    obtain ⟨h1, h2⟩ := List.pairwise_cons.mp h
    rw [iget_cons, List.mem_cons, Prod.mk.injEq]
    by_cases e : k' = k
    · subst e
      simp only [if_true, Option.some.injEq, true_and]
      constructor
      · rintro (rfl | hm)
        · rfl
        · have := h1 _ hm; simp only at this; omega
      · rintro rfl; exact .inl rfl
    · simp only [if_neg e]
      rw [← ih h2]
      constructor
      · rintro (⟨rfl, _⟩ | hm)
        · exact absurd rfl e
        · exact hm
      · exact .inr

theorem isorted_nodup {m : List (Int × β)} (h : ISorted m) : (m.map (·.1)).Nodup := by
  unfold List.Nodup
  rw [List.pairwise_map]
  exact List.Pairwise.imp (fun {a b} hab => by omega) h

/-! ### the loop over the zones -/

/-- how many mixed entries a zone takes -/
def slots (z : List (Int × α) × List (Int × β)) : Nat := if 2 ≤ z.1.length then z.1.length else 0

/-- what the arrays hold for zone `e`, its entries beginning at `slot` if it is mixed -/
structure ZoneAt (wrap : Int → Int) (zero : β) (o : Silo α β) (e slot : Nat) (z : List (Int × α) × List (Int × β)) : Prop where
  one : ∀ id v, z.1 = [(id, v)] → o.matlist[e]? = some (wrap id)
  more : 2 ≤ z.1.length → o.matlist[e]? = some (wrap (-(slot : Int) - 1)) ∧ slot + z.1.length ≤ o.mixMat.length ∧
    ∀ (j : Nat) (x : Int × α), z.1[j]? = some x →
      o.mixNext[slot + j]? = some (if j + 1 = z.1.length then wrap 0 else wrap ((slot + j : Nat) + 1 + 1)) ∧
      o.mixMat[slot + j]? = some (wrap x.1) ∧ o.mixVf[slot + j]? = some x.2 ∧
      o.mixVar[slot + j]? = some ((iget z.2 x.1).getD zero)

/-- the mixed arrays have one length -/
structure Even (o : Silo α β) : Prop where
  next : o.mixNext.length = o.mixMat.length
  vf : o.mixVf.length = o.mixMat.length
  var : o.mixVar.length = o.mixMat.length

structure Extends (o o' : Silo α β) : Prop where
  map : o'.matmap = o.matmap
  list : o.matlist <+: o'.matlist
  next : o.mixNext <+: o'.mixNext
  mat : o.mixMat <+: o'.mixMat
  vf : o.mixVf <+: o'.mixVf
  var : o.mixVar <+: o'.mixVar

theorem Extends.refl (o : Silo α β) : Extends o o := ⟨rfl, List.prefix_rfl, List.prefix_rfl, List.prefix_rfl, List.prefix_rfl, List.prefix_rfl⟩

theorem Extends.trans {a b c : Silo α β} (h : Extends a b) (k : Extends b c) : Extends a c :=
  ⟨k.map.trans h.map, h.list.trans k.list, h.next.trans k.next, h.mat.trans k.mat, h.vf.trans k.vf, h.var.trans k.var⟩

theorem prefix_get {γ : Type} {l l' : List γ} (h : l <+: l') {i : Nat} {x : γ} (hx : l[i]? = some x) : l'[i]? = some x := by
  obtain ⟨t, rfl⟩ := h
  obtain ⟨hlt, _⟩ := List.getElem?_eq_some_iff.mp hx
  rw [List.getElem?_append_left hlt, hx]

theorem ZoneAt.mono {wrap : Int → Int} {zero : β} {o o' : Silo α β} {e slot : Nat} {z} (h : ZoneAt wrap zero o e slot z) (hx : Extends o o') :
    ZoneAt wrap zero o' e slot z := by
  refine ⟨fun id v hz => prefix_get hx.list (h.one id v hz), fun h2 => ?_⟩
  obtain ⟨a, b, c⟩ := h.more h2
  refine ⟨prefix_get hx.list a, Nat.le_trans b hx.mat.length_le, ?_⟩
  intro j x hj
  obtain ⟨c1, c2, c3, c4⟩ := c j x hj
  exact ⟨prefix_get hx.next c1, prefix_get hx.mat c2, prefix_get hx.vf c3, prefix_get hx.var c4⟩

theorem zoneOut_spec (wrap : Int → Int) (zero : β) (o : Silo α β) (z : List (Int × α) × List (Int × β)) (hz : z.1 ≠ []) (he : Even o) :
    ∃ o', zoneOut wrap zero o z = .ok o' ∧ Even o' ∧ Extends o o' ∧ o'.matlist.length = o.matlist.length + 1 ∧
      o'.mixMat.length = o.mixMat.length + slots z ∧ ZoneAt wrap zero o' o.matlist.length o.mixMat.length z := by
  obtain ⟨m, f⟩ := z
  match m, hz with
  | [(id, v)], _ =>
    refine ⟨_, rfl, ⟨he.next, he.vf, he.var⟩, ⟨rfl, List.prefix_append _ _, List.prefix_rfl, List.prefix_rfl, List.prefix_rfl, List.prefix_rfl⟩,
      by simp, by simp [slots], ⟨?_, ?_⟩⟩
    · intro id' v' h
      simp only [List.cons.injEq, Prod.mk.injEq, and_true] at h
      simp [h.1]
    · intro h; simp at h
  | a :: b :: m, _ =>
    refine ⟨_, rfl, ⟨?_, ?_, ?_⟩, ⟨rfl, List.prefix_append _ _, List.prefix_append _ _, List.prefix_append _ _, List.prefix_append _ _, List.prefix_append _ _⟩,
      by simp, by simp [slots], ⟨?_, ?_⟩⟩
    · simp [he.next]
    · simp [he.vf]
    · simp [he.var]
    · intro id v h; simp at h
    · intro _
      refine ⟨by simp, by simp, ?_⟩
      intro j x hj
      obtain ⟨hlt, hx⟩ := List.getElem?_eq_some_iff.mp hj
      simp only at hlt
      refine ⟨?_, ?_, ?_, ?_⟩
      · rw [List.getElem?_append_right (by rw [he.next]; omega), he.next, Nat.add_sub_cancel_left, List.getElem?_set]
        by_cases hl : (a :: b :: m).length - 1 = j
        · rw [if_pos hl, if_pos (by simpa using hlt), if_pos (by simp only [List.length_cons] at hl ⊢; omega)]
        · rw [if_neg hl, List.getElem?_map, List.getElem?_range hlt, if_neg (by simp only [List.length_cons] at hl ⊢; omega)]
          rfl
      · rw [List.getElem?_append_right (by omega), Nat.add_sub_cancel_left, List.getElem?_map, hj]; rfl
      · rw [List.getElem?_append_right (by rw [he.vf]; omega), he.vf, Nat.add_sub_cancel_left, List.getElem?_map, hj]; rfl
      · rw [List.getElem?_append_right (by rw [he.var]; omega), he.var, Nat.add_sub_cancel_left, List.getElem?_map, hj]; rfl

theorem zones_spec (wrap : Int → Int) (zero : β) : ∀ (zs : List (List (Int × α) × List (Int × β))) (o : Silo α β), (∀ z ∈ zs, z.1 ≠ []) → Even o →
    ∃ o', zs.foldlM (zoneOut wrap zero) o = .ok o' ∧ Even o' ∧ Extends o o' ∧ o'.matlist.length = o.matlist.length + zs.length ∧
      o'.mixMat.length = o.mixMat.length + (zs.map slots).sum ∧
      ∀ (i : Nat) z, zs[i]? = some z → ZoneAt wrap zero o' (o.matlist.length + i) (o.mixMat.length + ((zs.take i).map slots).sum) z
  | [], o, _, he => ⟨o, rfl, he, .refl o, rfl, rfl, by simp⟩
  | z :: zs, o, hz, he => by
    obtain ⟨o1, h1, h2, h3, h4, h6, h5⟩ := zoneOut_spec wrap zero o z (hz z List.mem_cons_self) he
    obtain ⟨o2, g1, g2, g3, g4, g6, g5⟩ := zones_spec wrap zero zs o1 (fun x hx => hz x (List.mem_cons_of_mem _ hx)) h2
    refine ⟨o2, ?_, g2, h3.trans g3, by rw [g4, h4]; simp; omega, by rw [g6, h6]; simp; omega, ?_⟩
    · rw [List.foldlM_cons, h1]; exact g1
    · intro i y hy
      cases i with
      | zero =>
        simp only [List.getElem?_cons_zero, Option.some.injEq] at hy
        subst hy
        exact h5.mono g3
      | succ i =>
        have := g5 i y (by simpa using hy)
        rw [h4, h6] at this
        have e : o.matlist.length + 1 + i = o.matlist.length + (i + 1) := by omega
        rw [e] at this
        simp only [List.take_succ_cons, List.map_cons, List.sum_cons]
        rw [← Nat.add_assoc o.mixMat.length]
        exact this

/-- a zone without materials is an error -/
theorem zones_error (wrap : Int → Int) (zero : β) : ∀ (zs : List (List (Int × α) × List (Int × β))) (o : Silo α β), (∃ z ∈ zs, z.1 = []) →
    zs.foldlM (zoneOut wrap zero) o = .error
  | [], _, h => by obtain ⟨_, h, _⟩ := h; simp at h
  | z :: zs, o, h => by
    rw [List.foldlM_cons]
    by_cases hz : z.1 = []
    · have : zoneOut wrap zero o z = .error := by unfold zoneOut; rw [hz]
      rw [this]; rfl
    · have h' : ∃ z ∈ zs, z.1 = [] := by
        obtain ⟨y, hy, hy'⟩ := h
        rcases List.mem_cons.mp hy with rfl | hy
        · exact absurd hy' hz
        · exact ⟨y, hy, hy'⟩
      cases ho : zoneOut wrap zero o z with
      | ok o1 => exact zones_error wrap zero zs o1 h'
      | error => rfl
      | ub =>
        exfalso
        unfold zoneOut at ho
        split at ho <;> simp at ho

/-! ### reading the chains -/

theorem chain_range (next : List Int) (slot : Nat) : ∀ (n i : Nat),
    (∀ j, i ≤ j → j < i + n → next[slot + j]? = some (if j + 1 = i + n then 0 else ((slot + j : Nat) : Int) + 1 + 1)) → 0 < n →
    Chain next ((slot + i : Nat) + 1) ((List.range' i n).map (slot + ·))
  | 0, _, _, h => absurd h (by omega)
  | 1, i, h, _ => by
    refine .cons _ 0 _ ?_ .nil
    rw [h i (by omega) (by omega), if_pos (by omega)]
  | n + 2, i, h, _ => by
    have ih := chain_range next slot (n + 1) (i + 1) (fun j h1 h2 => by
      rw [h j (by omega) (by omega)]
      by_cases e : j + 1 = i + (n + 2)
      · rw [if_pos e, if_pos (by omega)]
      · rw [if_neg e, if_neg (by omega)]) (by omega)
    refine .cons _ _ _ ?_ ih
    rw [h i (by omega) (by omega), if_neg (by omega)]
    congr 1

theorem chain_unique {next : List Int} {p : Int} {l l' : List Nat} (h : Chain next p l) : Chain next p l' → l = l' := by
  induction h generalizing l' with
  | nil =>
    intro h'
    generalize hp : (0 : Int) = p at h'
    cases h' with
    | nil => rfl
    | cons d q l _ _ => omega
  | cons d q l hd hc ih =>
    intro h'
    generalize hp : ((d : Int) + 1) = p at h'
    cases h' with
    | nil => omega
    | cons d' q' l' hd' hc' =>
      have : d = d' := by omega
      subst this
      rw [hd] at hd'
      simp only [Option.some.injEq] at hd'
      subst hd'
      rw [ih hc']

end Conduit.Matset
