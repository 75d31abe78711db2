import Verif.Lemmas.Silo
/-
From the maps per zone to the silo arrays and back: what is read from the arrays is what the maps
hold.
-/
namespace Conduit.Matset
open Conduit.O2M (rd wr)
variable {α β : Type}

theorem map_name {mm : List (Str × Int)} (h : MapWF mm) {n n' : Str} {id : Int} (h1 : (n, id) ∈ mm) (h2 : (n', id) ∈ mm) : n = n' :=
  congrArg Prod.fst (nodup_map_inj h.nums h1 h2 rfl)

theorem map_num {mm : List (Str × Int)} (h : MapWF mm) {n : Str} {id id' : Int} (h1 : (n, id) ∈ mm) (h2 : (n, id') ∈ mm) : id = id' :=
  mem_unique h.names h1 h2

/-- the maps hold the entries of `H` above epsilon -/
structure Holds (mm : List (Str × Int)) (vf : List (List (Int × α))) (N : Nat) (big : α → Bool) (H : Nat → Str → α → Prop) : Prop where
  len : vf.length = N
  sorted : ∀ m ∈ vf, ISorted m
  mem : ∀ (e : Nat) m, vf[e]? = some m → ∀ id v, (id, v) ∈ m ↔ ∃ n, (n, id) ∈ mm ∧ H e n v ∧ big v = true
  known : ∀ e n v, H e n v → e < N ∧ n ∈ mm.map (·.1)

theorem Holds.named {mm : List (Str × Int)} {vf : List (List (Int × α))} {N : Nat} {big : α → Bool} {H : Nat → Str → α → Prop}
    (h : Holds mm vf N big H) {e : Nat} {m} (hm : vf[e]? = some m) {n : Str} {v : α} (hv : H e n v) (hb : big v = true) :
    ∃ id, (n, id) ∈ mm ∧ (id, v) ∈ m := by
  obtain ⟨⟨n', id⟩, hx, rfl⟩ := List.mem_map.mp (h.known e n v hv).2
  exact ⟨id, hx, (h.mem e m hm id v).mpr ⟨_, hx, hv, hb⟩⟩

theorem range_add (a b : Nat) : List.range (a + b) = List.range a ++ (List.range b).map (a + ·) := List.range_add ..

/-- consecutive pieces make up a range -/
theorem flatMap_pieces (len : Nat → Nat) : ∀ n, (List.range n).flatMap (fun e => (List.range (len e)).map (((List.range e).map len).sum + ·)) =
    List.range ((List.range n).map len).sum
  | 0 => rfl
  | n + 1 => by
    rw [List.range_succ, List.flatMap_append, flatMap_pieces len n, List.map_append, List.sum_append]
    simp only [List.flatMap_cons, List.flatMap_nil, List.append_nil, List.map_cons, List.map_nil, List.sum_cons, List.sum_nil, Nat.add_zero]
    rw [range_add]

/-- one zone as read: either clean, or a chain of the entries of its map -/
theorem read_zone {wrap : Int → Int} {zero : β} {o : Silo α β} {e slot : Nat} {z : List (Int × α) × List (Int × β)} {K : Nat}
    (hz : ZoneAt wrap zero o e slot z) (hne : z.1 ≠ []) (hK : Fits wrap K) (hlen : o.mixMat.length ≤ K) (hid : ∀ x ∈ z.1, 0 ≤ x.1 ∧ x.1 ≤ K) :
    (∃ id v, z.1 = [(id, v)] ∧ o.matlist[e]? = some id ∧ 0 ≤ id) ∨
    (2 ≤ z.1.length ∧ o.matlist[e]? = some (-(slot : Int) - 1) ∧
      Chain o.mixNext ((slot : Int) + 1) ((List.range z.1.length).map (slot + ·)) ∧
      ∀ (j : Nat) (x : Int × α), z.1[j]? = some x → o.mixMat[slot + j]? = some x.1 ∧ o.mixVf[slot + j]? = some x.2 ∧
        o.mixVar[slot + j]? = some ((iget z.2 x.1).getD zero)) := by
  by_cases h2 : 2 ≤ z.1.length
  · right
    obtain ⟨a, b, c⟩ := hz.more h2
    refine ⟨h2, ?_, ?_, ?_⟩
    · rw [a, hK _ (by omega) (by omega)]
    · have := chain_range o.mixNext slot z.1.length 0 (by
        intro j _ hj
        rw [(c j z.1[j] (List.getElem?_eq_getElem (by omega))).1]
        by_cases e : j + 1 = z.1.length
        · rw [if_pos e, if_pos (by omega), hK 0 (by omega) (by omega)]
        · rw [if_neg e, if_neg (by omega), hK _ (by omega) (by omega)]) (by omega)
      rw [List.range_eq_range']
      simpa using this
    · intro j x hj
      obtain ⟨_, c2, c3, c4⟩ := c j x hj
      have := hid x (List.mem_of_getElem? hj)
      exact ⟨by rw [c2, hK _ (by omega) (by omega)], c3, c4⟩
  · left
    match hm : z.1, hne with
    | [], h => exact absurd rfl h
    | [(id, v)], _ =>
      have := hid (id, v) (by rw [hm]; exact List.mem_cons_self)
      simp only at this
      exact ⟨id, v, rfl, by rw [hz.one id v hm, hK _ (by omega) (by omega)], by omega⟩
    | a :: b :: l, _ => rw [hm] at h2; simp at h2

theorem decode {wrap : Int → Int} {mm : List (Str × Int)} {M : Maps α β} {N K : Nat} {big : α → Bool} {H : Nat → Str → α → Prop} (zero : β)
    (h : Holds mm M.vf N big H) (hmv : M.mv.length = N) (hmm : MapWF mm) (hK : Fits wrap K) (hmK : ∀ x ∈ mm, x.2 ≤ K)
    (hne : ∀ m ∈ M.vf, m ≠ []) :
    ∃ O, siloOut wrap zero mm M = .ok O ∧ O.matmap = mm ∧ (O.mixMat.length ≤ K → Decodes O N big H ∧
      ∀ e n v w, SiloMix2 O e n v w ↔ SiloMix O e n v ∧ ∃ id f, (n, id) ∈ mm ∧ M.mv[e]? = some f ∧ w = (iget f id).getD zero) := by
  obtain ⟨O, h1, h2, h3, h4, h6, h5⟩ := zones_spec wrap zero (M.vf.zip M.mv) ⟨mm, [], [], [], [], []⟩
    (fun z hz => hne _ (List.of_mem_zip hz).1) ⟨rfl, rfl, rfl⟩
  refine ⟨O, h1, h3.map, fun hlen => ?_⟩
  have hOm : O.matmap = mm := h3.map
  have hL : O.matlist.length = N := by rw [h4]; simp [h.len, hmv]
  have hids : ∀ (e : Nat) m, M.vf[e]? = some m → ∀ x ∈ m, 0 ≤ x.1 ∧ x.1 ≤ K := by
    intro e m hm x hx
    obtain ⟨n, hn, _⟩ := (h.mem e m hm x.1 x.2).mp hx
    exact ⟨hmm.pos _ hn, hmK _ hn⟩
  obtain ⟨sl, hsl⟩ : ∃ sl : Nat → Nat, sl = fun e => (((M.vf.zip M.mv).take e).map slots).sum := ⟨_, rfl⟩
  have hzone : ∀ e, e < N → ∃ m f, M.vf[e]? = some m ∧ M.mv[e]? = some f ∧ m ≠ [] ∧ ISorted m ∧
      ((∃ id v, m = [(id, v)] ∧ O.matlist[e]? = some id ∧ 0 ≤ id) ∨
      (2 ≤ m.length ∧ ∃ slot : Nat, slot = sl e ∧ O.matlist[e]? = some (-(slot : Int) - 1) ∧
        Chain O.mixNext ((slot : Int) + 1) ((List.range m.length).map (slot + ·)) ∧
        ∀ (j : Nat) (x : Int × α), m[j]? = some x → O.mixMat[slot + j]? = some x.1 ∧ O.mixVf[slot + j]? = some x.2 ∧
          O.mixVar[slot + j]? = some ((iget f x.1).getD zero))) := by
    intro e he
    have hm := List.getElem?_eq_getElem (l := M.vf) (i := e) (by rw [h.len]; exact he)
    have hf := List.getElem?_eq_getElem (l := M.mv) (i := e) (by rw [hmv]; exact he)
    have hmem := List.mem_of_getElem? hm
    refine ⟨_, _, hm, hf, hne _ hmem, h.sorted _ hmem, ?_⟩
    have hz := h5 e (M.vf[e]'(by rw [h.len]; exact he), M.mv[e]'(by rw [hmv]; exact he)) (by
      rw [List.getElem?_zip_eq_some]; exact ⟨hm, hf⟩)
    simp only [List.length_nil, Nat.zero_add] at hz
    rcases read_zone hz (hne _ hmem) hK hlen (hids e _ hm) with h | ⟨h, h'⟩
    · exact .inl h
    · exact .inr ⟨h, _, by rw [hsl], h'⟩
  -- the entries of the mixed zones
  have hmix : ∀ e n v w, SiloMix2 O e n v w ↔ ∃ m f id, M.vf[e]? = some m ∧ M.mv[e]? = some f ∧ 2 ≤ m.length ∧ (id, v) ∈ m ∧
      (n, id) ∈ mm ∧ w = (iget f id).getD zero := by
    intro e n v w
    constructor
    · rintro ⟨x, l, d, id, hx, hx0, hc, hd, hmat, hn, hv, hw⟩
      have he : e < N := by
        obtain ⟨hlt, _⟩ := List.getElem?_eq_some_iff.mp hx; omega
      obtain ⟨m, f, hm, hf, _, _, hcase⟩ := hzone e he
      rcases hcase with ⟨id', _, _, hid', hpos⟩ | ⟨h2, slot, _, hs, hch, hall⟩
      · rw [hid'] at hx; simp only [Option.some.injEq] at hx; omega
      · rw [hs] at hx
        simp only [Option.some.injEq] at hx
        subst hx
        have hneg : -(-(slot : Int) - 1) = (slot : Int) + 1 := by omega
        rw [hneg] at hc
        have := chain_unique hc hch
        subst this
        obtain ⟨j, hj, rfl⟩ := List.mem_map.mp hd
        rw [List.mem_range] at hj
        have hj' := List.getElem?_eq_getElem hj
        obtain ⟨a1, a2, a3⟩ := hall j _ hj'
        rw [a1] at hmat; rw [a2] at hv; rw [a3] at hw
        simp only [Option.some.injEq] at hmat hv hw
        subst hmat; subst hv; subst hw
        exact ⟨m, f, _, hm, hf, h2, List.mem_of_getElem? hj', by rw [← hOm]; exact hn, rfl⟩
    · rintro ⟨m, f, id, hm, hf, h2, hid, hn, rfl⟩
      have he : e < N := by
        obtain ⟨hlt, _⟩ := List.getElem?_eq_some_iff.mp hm; rw [h.len] at hlt; exact hlt
      obtain ⟨m', f', hm', hf', _, _, hcase⟩ := hzone e he
      rw [hm] at hm'; rw [hf] at hf'
      simp only [Option.some.injEq] at hm' hf'
      subst hm'; subst hf'
      rcases hcase with ⟨id', v', hm1, _⟩ | ⟨_, slot, _, hs, hch, hall⟩
      · rw [hm1] at h2; simp at h2
      · obtain ⟨j, hj⟩ := List.getElem?_of_mem hid
        obtain ⟨a1, a2, a3⟩ := hall j _ hj
        obtain ⟨hlt, _⟩ := List.getElem?_eq_some_iff.mp hj
        exact ⟨_, _, slot + j, id, hs, by omega, by
          rw [show -(-(slot : Int) - 1) = (slot : Int) + 1 by omega]; exact hch,
          List.mem_map.mpr ⟨j, List.mem_range.mpr hlt, rfl⟩, a1, by rw [hOm]; exact hn, a2, a3⟩
  have hmix1 : ∀ e n v, SiloMix O e n v ↔ ∃ m id, M.vf[e]? = some m ∧ 2 ≤ m.length ∧ (id, v) ∈ m ∧ (n, id) ∈ mm := by
    intro e n v
    constructor
    · rintro ⟨x, l, d, id, hx, hx0, hc, hd, hmat, hn, hv⟩
      have hw : O.mixVar[d]? = some (O.mixVar[d]'(by
          rw [h2.var]; exact (List.getElem?_eq_some_iff.mp hmat).choose)) := List.getElem?_eq_getElem _
      obtain ⟨m, f, id, a, b, c, d, e, _⟩ := (hmix _ _ _ _).mp ⟨x, l, d, id, hx, hx0, hc, hd, hmat, hn, hv, hw⟩
      exact ⟨m, id, a, c, d, e⟩
    · rintro ⟨m, id, a, c, d, f⟩
      have he : e < N := by
        obtain ⟨hlt, _⟩ := List.getElem?_eq_some_iff.mp a; rw [h.len] at hlt; exact hlt
      obtain ⟨x, l, d, id, hx, hx0, hc, hd, hmat, hn, hv, _⟩ := (hmix e n v _).mpr
        ⟨m, _, id, a, List.getElem?_eq_getElem (by rw [hmv]; exact he), c, d, f, rfl⟩
      exact ⟨x, l, d, id, hx, hx0, hc, hd, hmat, hn, hv⟩
  refine ⟨⟨hL, ⟨h2.next, h2.vf⟩, ?_, ?_, ?_, ?_⟩, ?_⟩
  · intro e x hx hx0
    have he : e < N := by
      obtain ⟨hlt, _⟩ := List.getElem?_eq_some_iff.mp hx; omega
    obtain ⟨m, f, hm, hf, _, hsort, hcase⟩ := hzone e he
    rcases hcase with ⟨id', _, _, hid', hpos⟩ | ⟨_, slot, _, hs, hch, hall⟩
    · rw [hid'] at hx; simp only [Option.some.injEq] at hx; omega
    · rw [hs] at hx
      simp only [Option.some.injEq] at hx
      subst hx
      refine ⟨_, by rw [show -(-(slot : Int) - 1) = (slot : Int) + 1 by omega]; exact hch, ?_, ?_⟩
      rotate_left
      · intro d hd
        obtain ⟨j, hj, rfl⟩ := List.mem_map.mp hd
        rw [List.mem_range] at hj
        have hj' := List.getElem?_eq_getElem hj
        obtain ⟨n, hn, _⟩ := (h.mem e m hm _ _).mp (List.mem_of_getElem? hj')
        exact ⟨_, (hall j _ hj').1, by rw [hOm]; exact List.mem_map.mpr ⟨_, hn, rfl⟩⟩
      have : (((List.range m.length).map (slot + ·)).map fun d => O.mixMat[d]?) = (m.map (·.1)).map some := by
        apply List.ext_getElem?
        intro j
        rw [List.getElem?_map, List.getElem?_map, List.getElem?_map, List.getElem?_map]
        by_cases hj : j < m.length
        · rw [List.getElem?_range hj, List.getElem?_eq_getElem hj]
          simp only [Option.map_some, (hall j _ (List.getElem?_eq_getElem hj)).1]
        · rw [List.getElem?_eq_none (by simp; omega), List.getElem?_eq_none (by omega)]; rfl
      rw [this]
      unfold List.Nodup
      rw [List.pairwise_map]
      exact List.Pairwise.imp (fun {a b} hab heq => hab (by simpa using heq)) (isorted_nodup hsort)
  · have hzl : (M.vf.zip M.mv).length = N := by simp [h.len, hmv]
    obtain ⟨len, hlen'⟩ : ∃ len : Nat → Nat, len = fun e => (((M.vf.zip M.mv)[e]?).map slots).getD 0 := ⟨_, rfl⟩
    have hsum : ∀ e, e ≤ N → sl e = ((List.range e).map len).sum := by
      intro e he
      rw [hsl]
      simp only
      congr 1
      apply List.ext_getElem?
      intro j
      rw [List.getElem?_map, List.getElem?_map]
      by_cases hj : j < e
      · rw [List.getElem?_take_of_lt hj, List.getElem?_range hj, hlen']
        simp only [Option.map_some, List.getElem?_eq_getElem (show j < (M.vf.zip M.mv).length by omega), Option.getD_some]
      · rw [List.getElem?_eq_none (by simp; omega), List.getElem?_eq_none (by simp; omega)]; rfl
    have hlenm : ∀ e m f, M.vf[e]? = some m → M.mv[e]? = some f → len e = if 2 ≤ m.length then m.length else 0 := by
      intro e m f hm hf
      have : (M.vf.zip M.mv)[e]? = some (m, f) := List.getElem?_zip_eq_some.mpr ⟨hm, hf⟩
      rw [hlen']
      simp only [this]
      rfl
    refine ⟨fun e => (List.range (len e)).map (((List.range e).map len).sum + ·), ?_, ?_⟩
    · intro e x hx
      have he : e < N := by
        obtain ⟨hlt, _⟩ := List.getElem?_eq_some_iff.mp hx; omega
      obtain ⟨m, f, hm, hf, _, hsort, hcase⟩ := hzone e he
      rcases hcase with ⟨id', _, hm1, hid', hpos⟩ | ⟨h2', slot, hslot, hs, hch, hall⟩
      · rw [hid'] at hx
        simp only [Option.some.injEq] at hx
        refine ⟨fun _ => ?_, fun _ => by omega⟩
        simp only
        rw [hlenm e m f hm hf, hm1]
        rfl
      · rw [hs] at hx
        simp only [Option.some.injEq] at hx
        refine ⟨fun _ => by omega, fun _ => ?_⟩
        simp only
        rw [hlenm e m f hm hf, if_pos h2', ← hsum e (by omega), ← hslot, ← hx, show -(-(slot : Int) - 1) = (slot : Int) + 1 by omega]
        exact hch
    · rw [flatMap_pieces, hL, ← hsum N (Nat.le_refl _)]
      rw [h6, hsl]
      simp only [List.length_nil, Nat.zero_add]
      rw [List.take_of_length_le (by omega)]
  · intro e n he
    obtain ⟨m, f, hm, hf, _, hsort, hcase⟩ := hzone e he
    rcases hcase with ⟨id, v, hm1, hid, hpos⟩ | ⟨h2', slot, _, hs, hch, hall⟩
    · constructor
      · rintro ⟨x, hx, hx0, hxm⟩
        rw [hid] at hx
        simp only [Option.some.injEq] at hx
        subst hx
        rw [hOm] at hxm
        obtain ⟨n', hn', hv, hb⟩ := (h.mem e m hm id v).mp (by rw [hm1]; exact List.mem_cons_self)
        have := map_name hmm hxm hn'
        subst this
        refine ⟨⟨v, hv, hb⟩, ?_⟩
        intro n' v' hv' hb'
        obtain ⟨id', hid', hmem⟩ := h.named hm hv' hb'
        rw [hm1, List.mem_singleton, Prod.mk.injEq] at hmem
        rw [hmem.1] at hid'
        exact map_name hmm hid' hxm
      · rintro ⟨⟨v', hv', hb'⟩, _⟩
        obtain ⟨id', hid', hmem⟩ := h.named hm hv' hb'
        rw [hm1, List.mem_singleton, Prod.mk.injEq] at hmem
        rw [hmem.1] at hid'
        exact ⟨id, hid, hpos, by rw [hOm]; exact hid'⟩
    · constructor
      · rintro ⟨x, hx, hx0, _⟩
        rw [hs] at hx
        simp only [Option.some.injEq] at hx
        omega
      · rintro ⟨_, hu⟩
        exfalso
        have g0 := List.getElem?_eq_getElem (l := m) (i := 0) (by omega)
        have g1 := List.getElem?_eq_getElem (l := m) (i := 1) (by omega)
        obtain ⟨n0, a0, b0, c0⟩ := (h.mem e m hm _ _).mp (List.mem_of_getElem? g0)
        obtain ⟨n1, a1, b1, c1⟩ := (h.mem e m hm _ _).mp (List.mem_of_getElem? g1)
        have e0 := hu n0 _ b0 c0
        have e1 := hu n1 _ b1 c1
        subst e0; subst e1
        have heq : (m[0]'(by omega)).1 = (m[1]'(by omega)).1 := map_num hmm a0 a1
        have hlt := List.pairwise_iff_getElem.mp hsort 0 1 (by omega) (by omega) (by omega)
        rw [heq] at hlt
        exact absurd hlt (Int.lt_irrefl _)
  · intro e n v he
    rw [hmix1]
    constructor
    · rintro ⟨m, id, hm, h2', hid, hn⟩
      obtain ⟨n', hn', hv, hb⟩ := (h.mem e m hm id v).mp hid
      have := map_name hmm hn hn'
      subst this
      refine ⟨⟨hv, hb⟩, ?_⟩
      have hsort := h.sorted m (List.mem_of_getElem? hm)
      -- some entry with another id
      have : ∃ y ∈ m, y.1 ≠ id := by
        have g0 := List.getElem?_eq_getElem (l := m) (i := 0) (by omega)
        have g1 := List.getElem?_eq_getElem (l := m) (i := 1) (by omega)
        have hlt := List.pairwise_iff_getElem.mp hsort 0 1 (by omega) (by omega) (by omega)
        by_cases e0 : (m[0]'(by omega)).1 = id
        · exact ⟨_, List.mem_of_getElem? g1, by omega⟩
        · exact ⟨_, List.mem_of_getElem? g0, e0⟩
      obtain ⟨y, hy, hne'⟩ := this
      obtain ⟨n'', hn'', hv'', hb''⟩ := (h.mem e m hm y.1 y.2).mp hy
      refine ⟨n'', y.2, ?_, hv'', hb''⟩
      rintro rfl
      exact hne' (map_num hmm hn'' hn)
    · rintro ⟨⟨hv, hb⟩, n', v', hne', hv', hb'⟩
      obtain ⟨m, f, hm, _⟩ := hzone e he
      obtain ⟨id, a, b⟩ := h.named hm hv hb
      obtain ⟨id', a', b'⟩ := h.named hm hv' hb'
      refine ⟨m, id, hm, ?_, b, a⟩
      match m, b, b' with
      | [], b, _ => simp at b
      | [x], b, b' =>
        rw [List.mem_singleton] at b b'
        have : id = id' := by
          have := b.trans b'.symm
          exact congrArg Prod.fst this
        subst this
        exact absurd (map_name hmm a' a) hne'
      | _ :: _ :: _, _, _ => simp
  · intro e n v w
    rw [hmix, hmix1]
    constructor
    · rintro ⟨m, f, id, a, b, c, d, g, rfl⟩
      exact ⟨⟨m, id, a, c, d, g⟩, id, f, g, b, rfl⟩
    · rintro ⟨⟨m, id, a, c, d, g⟩, id', f, g', b, rfl⟩
      have := map_num hmm g g'
      subst this
      exact ⟨m, f, id, a, b, c, d, g, rfl⟩

end Conduit.Matset
