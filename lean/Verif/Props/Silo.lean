import Verif.Lemmas.Silo4
import Verif.Props.Matset
/-
Property theorems C68 (the silo form of a matset and of a material dependent field).
-/
namespace Conduit.Matset
open Conduit.O2M (rd wr ones size target entries Valid Consecutive)
variable {α β : Type}

/-! ### assembling -/

private theorem finish {wrap : Int → Int} {mm : List (Str × Int)} {M : Maps α β} {N K : Nat} {big : α → Bool} {H : Nat → Str → α → Prop} (zero : β)
    (H2 : Nat → Str → α → β → Prop) (h : Holds mm M.vf N big H) (hmv : M.mv.length = N) (hmm : MapWF mm) (hK : Fits wrap K) (hmK : ∀ x ∈ mm, x.2 ≤ K)
    (hz : NoEmpty N big H) (field : Prop) (h1 : field → ∀ e n v w, H2 e n v w → H e n v) (h2 : field → ∀ e n v, H e n v → ∃ w, H2 e n v w)
    (h3 : field → ∀ (e : Nat) f n id w, M.mv[e]? = some f → (n, id) ∈ mm → (iget f id = some w ↔ ∃ v, H2 e n v w ∧ big v = true)) :
    ∃ O, siloOut wrap zero mm M = .ok O ∧ O.matmap = mm ∧ (O.mixMat.length ≤ K → Decodes O N big H ∧
      (field → ∀ e n v w, SiloMix2 O e n v w ↔ (H2 e n v w ∧ big v = true) ∧ Other big H e n)) := by
  obtain ⟨O, a, b, c⟩ := decode zero h hmv hmm hK hmK (by
    intro m hm hnil
    obtain ⟨e, he⟩ := List.getElem?_of_mem hm
    obtain ⟨hlt, _⟩ := List.getElem?_eq_some_iff.mp he
    obtain ⟨n, v, hv, hb⟩ := hz e (by rw [← h.len]; exact hlt)
    obtain ⟨id, _, hmem⟩ := h.named he hv hb
    rw [hnil] at hmem; simp at hmem)
  refine ⟨O, a, b, fun hl => ⟨(c hl).1, fun hf => ?_⟩⟩
  obtain ⟨D, hmix2⟩ := c hl
  intro e n v w
  rw [hmix2]
  constructor
  · rintro ⟨hm, id, f, hn, hfe, rfl⟩
    have he : e < N := by
      obtain ⟨hlt, _⟩ := List.getElem?_eq_some_iff.mp hfe; rw [hmv] at hlt; exact hlt
    obtain ⟨⟨hv, hb⟩, ho⟩ := (D.mix e n v he).mp hm
    obtain ⟨w, hw⟩ := h2 hf e n v hv
    have := (h3 hf e f n id w hfe hn).mpr ⟨v, hw, hb⟩
    rw [this]
    exact ⟨⟨hw, hb⟩, ho⟩
  · rintro ⟨⟨hw, hb⟩, ho⟩
    have hv := h1 hf e n v w hw
    obtain ⟨he, hn⟩ := h.known e n v hv
    refine ⟨(D.mix e n v he).mpr ⟨⟨hv, hb⟩, ho⟩, ?_⟩
    obtain ⟨⟨n', id⟩, hx, rfl⟩ := List.mem_map.mp hn
    have hfe := List.getElem?_eq_getElem (l := M.mv) (i := e) (by rw [hmv]; exact he)
    exact ⟨id, _, hx, hfe, by rw [(h3 hf e _ n' id w hfe hx).mpr ⟨v, hw, hb⟩]; rfl⟩

/-! ### uni-buffer matsets -/

private def UHas (S : Sbe α) (el : Nat → Nat) (vals : List β) (e : Nat) (n : Str) (v : β) : Prop :=
  ∃ i d id, Slot S i d ∧ el i = e ∧ S.ids[d]? = some id ∧ (n, id) ∈ S.matmap ∧ vals[d]? = some v

private def UHas2 (S : Sbe α) (el : Nat → Nat) (fv : List β) (e : Nat) (n : Str) (v : α) (w : β) : Prop :=
  ∃ i d id, Slot S i d ∧ el i = e ∧ S.ids[d]? = some id ∧ (n, id) ∈ S.matmap ∧ S.vals[d]? = some v ∧ fv[d]? = some w

private theorem uni_decode (wrap : Int → Int) (big : α → Bool) (zero : β) (S : Sbe α) (eids : Option (List Int)) (fv : Option (List β)) (N K : Nat) (dα : α)
    (el : Nat → Nat) (hv : Valid S.rel) (hc : Consecutive S.rel) (hpos : ∀ i < ones S.rel, 0 < size S.rel i)
    (htp : ∀ i < ones S.rel, ∀ j < size S.rel i, 0 ≤ target S.rel i j)
    (hcount : uniCount S eids = (N : Int)) (hel : ∀ i < ones S.rel, elemAt eids (i : Int) = .ok (el i : Int) ∧ el i < N)
    (hd : ∀ i d, Slot S i d → d < S.ids.length ∧ d < S.vals.length) (hf : ∀ f, fv = some f → S.vals.length ≤ f.length)
    (hmm : MapWF S.matmap) (hmK : ∀ x ∈ S.matmap, x.2 ≤ K) (hknown : ∀ i d id, Slot S i d → S.ids[d]? = some id → id ∈ S.matmap.map (·.2))
    (hu : ∀ i d i' d' id, Slot S i d → Slot S i' d' → el i = el i' → S.ids[d]? = some id → S.ids[d']? = some id → d = d')
    (hK : Fits wrap K) (hz : NoEmpty N big (UHas S el S.vals)) (fuel : Nat) (hfuel : ones S.rel + O2M.pfx S.rel (ones S.rel) + 1 < fuel) :
    ∃ O, uniSilo wrap big zero S eids fv fuel = some (.ok O) ∧ O.matmap = S.matmap ∧ (O.mixMat.length ≤ K → Decodes O N big (UHas S el S.vals) ∧
      ∀ f, fv = some f → ∀ e n v w, SiloMix2 O e n v w ↔ (UHas2 S el f e n v w ∧ big v = true) ∧ Other big (UHas S el S.vals) e n) := by
  obtain ⟨M, hM, hB1, hB2⟩ := uniMaps_spec big S eids fv dα zero N el hv hc hpos htp hcount hel hd hf fuel hfuel
  have hvf : ∀ e id v, (e, id, v) ∈ vfPart (uall big S el fv dα zero) ↔
      ∃ i d, Slot S i d ∧ e = el i ∧ S.ids[d]? = some id ∧ S.vals[d]? = some v ∧ big v = true := by
    intro e id v
    unfold vfPart
    rw [List.mem_map]
    constructor
    · rintro ⟨x, hx, heq⟩
      simp only [Prod.mk.injEq] at heq
      obtain ⟨rfl, rfl, rfl⟩ := heq
      obtain ⟨i, d, a, b, c, d', e, _⟩ := (mem_uall big S el fv dα zero htp hd x).mp hx
      exact ⟨i, d, a, b, c, d', e⟩
    · rintro ⟨i, d, a, b, c, d', e'⟩
      exact ⟨(e, id, v, fv.map (·.getD d zero)), (mem_uall big S el fv dα zero htp hd _).mpr ⟨i, d, a, b, c, d', e', rfl⟩, rfl⟩
  have hmvp : ∀ f, fv = some f → ∀ e id w, (e, id, w) ∈ mvPart (uall big S el fv dα zero) ↔
      ∃ i d v, Slot S i d ∧ e = el i ∧ S.ids[d]? = some id ∧ S.vals[d]? = some v ∧ big v = true ∧ f[d]? = some w := by
    intro f hff e id w
    unfold mvPart
    rw [List.mem_filterMap]
    have hfd : ∀ i d, Slot S i d → f[d]? = some (f.getD d zero) := by
      intro i d hs
      have := (hd i d hs).2
      have := hf f hff
      simp [List.getD, List.getElem?_eq_getElem (show d < f.length by omega)]
    constructor
    · rintro ⟨x, hx, heq⟩
      obtain ⟨i, d, a, b, c, d', e', g⟩ := (mem_uall big S el fv dα zero htp hd x).mp hx
      rw [g, hff] at heq
      simp only [Option.map_some, Option.some.injEq, Prod.mk.injEq] at heq
      obtain ⟨rfl, rfl, rfl⟩ := heq
      exact ⟨i, d, _, a, b, c, d', e', hfd i d a⟩
    · rintro ⟨i, d, v, a, b, c, d', e', g⟩
      refine ⟨(e, id, v, fv.map (·.getD d zero)), (mem_uall big S el fv dα zero htp hd _).mpr ⟨i, d, a, b, c, d', e', rfl⟩, ?_⟩
      have := hfd i d a
      rw [g] at this
      simp only [Option.some.injEq] at this
      rw [hff]
      simp only [Option.map_some, ← this]
  have huq : ∀ e id v v', (e, id, v) ∈ vfPart (uall big S el fv dα zero) → (e, id, v') ∈ vfPart (uall big S el fv dα zero) → v = v' := by
    intro e id v v' h1 h2
    obtain ⟨i, d, a, b, c, d1, _⟩ := (hvf _ _ _).mp h1
    obtain ⟨i', d', a', b', c', d1', _⟩ := (hvf _ _ _).mp h2
    have := hu i d i' d' id a a' (b.symm.trans b') c c'
    subst this
    rw [d1] at d1'
    simpa using d1'
  have hholds : Holds S.matmap M.vf N big (UHas S el S.vals) := by
    refine ⟨hB1.len, hB1.sorted, ?_, ?_⟩
    · intro e m hm id v
      rw [mem_iff_iget (hB1.sorted m (List.mem_of_getElem? hm)), hB1.mem huq hm, hvf]
      constructor
      · rintro ⟨i, d, a, rfl, c, d1, hb⟩
        obtain ⟨⟨n, id'⟩, hx, rfl⟩ := List.mem_map.mp (hknown i d id a c)
        exact ⟨n, hx, ⟨i, d, _, a, rfl, c, hx, d1⟩, hb⟩
      · rintro ⟨n, hn, ⟨i, d, id', a, rfl, c, hn', d1⟩, hb⟩
        have := map_num hmm hn hn'
        subst this
        exact ⟨i, d, a, rfl, c, d1, hb⟩
    · rintro e n v ⟨i, d, id, a, rfl, c, hn, d1⟩
      exact ⟨(hel i a.1).2, List.mem_map.mpr ⟨_, hn, rfl⟩⟩
  have main : ∀ f : List β, (fv = some f ∨ fv = none) → ∃ O, siloOut wrap zero S.matmap M = .ok O ∧ O.matmap = S.matmap ∧
      (O.mixMat.length ≤ K → Decodes O N big (UHas S el S.vals) ∧
      (fv = some f → ∀ e n v w, SiloMix2 O e n v w ↔ (UHas2 S el f e n v w ∧ big v = true) ∧ Other big (UHas S el S.vals) e n)) := by
    intro f _
    refine finish zero (UHas2 S el f) hholds hB2.len hmm hK hmK hz (fv = some f) ?_ ?_ ?_
    · rintro _ e n v w ⟨i, d, id, a, b, c, hn, d1, _⟩
      exact ⟨i, d, id, a, b, c, hn, d1⟩
    · rintro hff e n v ⟨i, d, id, a, b, c, hn, d1⟩
      have h1 := (hd i d a).2
      have h2 := hf f hff
      exact ⟨_, i, d, id, a, b, c, hn, d1, List.getElem?_eq_getElem (by omega)⟩
    · intro hff e mf n id w hm hn
      have huq2 : ∀ e id w w', (e, id, w) ∈ mvPart (uall big S el fv dα zero) → (e, id, w') ∈ mvPart (uall big S el fv dα zero) → w = w' := by
        intro e id w w' h1 h2
        obtain ⟨i, d, _, a, b, c, _, _, d1⟩ := (hmvp f hff _ _ _).mp h1
        obtain ⟨i', d', _, a', b', c', _, _, d1'⟩ := (hmvp f hff _ _ _).mp h2
        have := hu i d i' d' id a a' (b.symm.trans b') c c'
        subst this
        rw [d1] at d1'
        simpa using d1'
      rw [hB2.mem huq2 hm, hmvp f hff]
      constructor
      · rintro ⟨i, d, v, a, rfl, c, d1, hb, d2⟩
        exact ⟨v, ⟨i, d, id, a, rfl, c, hn, d1, d2⟩, hb⟩
      · rintro ⟨v, ⟨i, d, id', a, rfl, c, hn', d1, d2⟩, hb⟩
        have := map_num hmm hn hn'
        subst this
        exact ⟨i, d, v, a, rfl, c, d1, hb, d2⟩
  cases hfv : fv with
  | none =>
    obtain ⟨O, a, b, c⟩ := main [] (.inr hfv)
    refine ⟨O, ?_, b, fun hl => ⟨(c hl).1, by simp⟩⟩
    unfold uniSilo
    rw [← hfv, hM]
    exact congrArg some a
  | some f =>
    obtain ⟨O, a, b, c⟩ := main f (.inl hfv)
    refine ⟨O, ?_, b, fun hl => ⟨(c hl).1, ?_⟩⟩
    · unfold uniSilo
      rw [← hfv, hM]
      exact congrArg some a
    · rintro f' hff'
      simp only [Option.some.injEq] at hff'
      subst hff'
      exact (c hl).2 hfv

private theorem uhas_self (S : Sbe α) (vals : List β) : UHas S (fun i => i) vals = SbeHas S vals := by
  funext e n v
  apply propext
  constructor
  · rintro ⟨i, d, id, a, rfl, b, c, d'⟩; exact ⟨d, id, a, b, c, d'⟩
  · rintro ⟨d, id, a, b, c, d'⟩; exact ⟨e, d, id, a, rfl, b, c, d'⟩

private theorem uhas2_self (S : Sbe α) (fv : List β) : UHas2 S (fun i => i) fv = SbeHas2 S fv := by
  funext e n v w
  apply propext
  constructor
  · rintro ⟨i, d, id, a, rfl, b, c, d'⟩; exact ⟨d, id, a, b, c, d'⟩
  · rintro ⟨d, id, a, b, c, d'⟩; exact ⟨e, d, id, a, rfl, b, c, d'⟩

/-- C68, sparse by element: with a material above epsilon in every element, `to_silo` ends, and
    what is read from its arrays is the mixture of every element (and the field beside it).
    Partial: the groups have to be consecutive. -/
theorem C68_element_partial [Inhabited α] (wrap : Int → Int) (big : α → Bool) (zero : β) (S : Sbe α) (fv : Option (List β)) (N K : Nat)
    (h : SbeWF S N) (ho : Once S) (hc : Consecutive S.rel) (hid : ∀ x ∈ S.matmap, 0 ≤ x.2 ∧ x.2 ≤ K) (hK : Fits wrap K)
    (hz : NoEmpty N big (SbeHas S S.vals)) (hf : ∀ f, fv = some f → S.vals.length ≤ f.length) :
    ∃ F, ∀ fuel > F, ∃ O, uniSilo wrap big zero S none fv fuel = some (.ok O) ∧ O.matmap = S.matmap ∧
      (O.mixMat.length ≤ K → Decodes O N big (SbeHas S S.vals) ∧
      ∀ f, fv = some f → ∀ e n v w, SiloMix2 O e n v w ↔ (SbeHas2 S f e n v w ∧ big v = true) ∧ Other big (SbeHas S S.vals) e n) := by
  refine ⟨ones S.rel + O2M.pfx S.rel (ones S.rel) + 1, fun fuel hfuel => ?_⟩
  have := uni_decode wrap big zero S none fv N K default (fun i => i) h.rel hc
    (by
      intro i hi
      obtain ⟨n, v, ⟨d, id, ⟨_, j, hj, _⟩, _⟩, _⟩ := hz i (by rw [← h.zones]; exact hi)
      omega)
    (by rw [h.zones]; exact h.pos) (by unfold uniCount; rw [O2M.elementsOne_eq, h.zones])
    (fun i hi => ⟨rfl, by rw [← h.zones]; exact hi⟩) h.data hf ⟨h.names, h.nums, fun x hx => (hid x hx).1⟩ (fun x hx => (hid x hx).2) h.known
    (by
      rintro i d i' d' id ⟨hi, j, hj, ht⟩ ⟨hi', j', hj', ht'⟩ heq h1 h2
      have heq : i = i' := heq
      subst heq
      have := ho i j j' id hi hj hj' (by rw [ht]; exact h1) (by rw [ht']; exact h2)
      subst this
      omega)
    hK (by rw [uhas_self]; exact hz) fuel hfuel
  simp only [uhas_self, uhas2_self] at this
  exact this

theorem foldl_max (es : List Int) : ∀ (n0 : Int), (∀ (N : Int), n0 ≤ N → (∀ x ∈ es, x < N) → es.foldl (fun n e => max n (e + 1)) n0 ≤ N) ∧
    n0 ≤ es.foldl (fun n e => max n (e + 1)) n0 ∧ ∀ x ∈ es, x < es.foldl (fun n e => max n (e + 1)) n0 := by
  induction es with
  | nil => intro n0; exact ⟨fun N h _ => h, Int.le_refl _, by simp⟩
  | cons a es ih =>
    intro n0
    obtain ⟨h1, h2, h3⟩ := ih (max n0 (a + 1))
    refine ⟨?_, ?_, ?_⟩
    · intro N hN hx
      refine h1 N ?_ fun x hx' => hx x (List.mem_cons_of_mem _ hx')
      have := hx a List.mem_cons_self
      omega
    · simp only [List.foldl_cons]; omega
    · intro x hx
      simp only [List.foldl_cons]
      rcases List.mem_cons.mp hx with rfl | hx
      · omega
      · exact h3 x hx

theorem maxElem_eq (es : List Int) (N : Nat) (h : ∀ x ∈ es, x < N) (hN : ∀ e < N, (e : Int) ∈ es) : maxElem es = N := by
  obtain ⟨h1, h2, h3⟩ := foldl_max es 0
  have a := h1 N (by omega) h
  unfold maxElem
  by_cases h0 : N = 0
  · subst h0; omega
  · have := h3 _ (hN (N - 1) (by omega))
    omega

/-- C68, uni-buffer, material dominant. -/
theorem C68_material_unibuffer_partial [Inhabited α] (wrap : Int → Int) (big : α → Bool) (zero : β) (S : Sbe α) (eids : List Int) (fv : Option (List β))
    (G N K : Nat) (h : SbeWF S G) (hl : eids.length = G) (hpos : ∀ i < G, 0 < size S.rel i) (he : ∀ x ∈ eids, 0 ≤ x ∧ x < N) (ho : UbmOnce S eids)
    (hc : Consecutive S.rel) (hid : ∀ x ∈ S.matmap, 0 ≤ x.2 ∧ x.2 ≤ K) (hK : Fits wrap K)
    (hz : NoEmpty N big (UbmHas S eids S.vals)) (hf : ∀ f, fv = some f → S.vals.length ≤ f.length) :
    ∃ F, ∀ fuel > F, ∃ O, uniSilo wrap big zero S (some eids) fv fuel = some (.ok O) ∧ O.matmap = S.matmap ∧
      (O.mixMat.length ≤ K → Decodes O N big (UbmHas S eids S.vals) ∧
      ∀ f, fv = some f → ∀ e n v w, SiloMix2 O e n v w ↔ (UbmHas2 S eids f e n v w ∧ big v = true) ∧ Other big (UbmHas S eids S.vals) e n) := by
  refine ⟨ones S.rel + O2M.pfx S.rel (ones S.rel) + 1, fun fuel hfuel => ?_⟩
  have hget : ∀ i, i < ones S.rel → eids[i]? = some ((eids.getD i 0).toNat : Int) := by
    intro i hi
    rw [h.zones] at hi
    have hlt : i < eids.length := by omega
    have := he _ (List.getElem_mem hlt)
    simp only [List.getD, List.getElem?_eq_getElem hlt, Option.getD_some]
    congr 1; omega
  have e1 : ∀ {γ : Type} (vals : List γ), UHas S (fun i => (eids.getD i 0).toNat) vals = UbmHas S eids vals := by
    intro γ vals
    funext e n v
    apply propext
    constructor
    · rintro ⟨i, d, id, a, rfl, b, c, d'⟩; exact ⟨i, d, id, a, hget i a.1, b, c, d'⟩
    · rintro ⟨i, d, id, a, hi, b, c, d'⟩
      rw [hget i a.1] at hi
      simp only [Option.some.injEq] at hi
      exact ⟨i, d, id, a, by show (eids.getD i 0).toNat = e; omega, b, c, d'⟩
  have e2 : ∀ f : List β, UHas2 S (fun i => (eids.getD i 0).toNat) f = UbmHas2 S eids f := by
    intro f
    funext e n v w
    apply propext
    constructor
    · rintro ⟨i, d, id, a, rfl, b, c, d'⟩; exact ⟨i, d, id, a, hget i a.1, b, c, d'⟩
    · rintro ⟨i, d, id, a, hi, b, c, d'⟩
      rw [hget i a.1] at hi
      simp only [Option.some.injEq] at hi
      exact ⟨i, d, id, a, by show (eids.getD i 0).toNat = e; omega, b, c, d'⟩
  have hcount : uniCount S (some eids) = (N : Int) := maxElem_eq eids N (fun x hx => (he x hx).2) (by
    intro e heN
    obtain ⟨n, v, ⟨i, _, _, _, hi, _⟩, _⟩ := hz e heN
    exact List.mem_of_getElem? hi)
  have := uni_decode wrap big zero S (some eids) fv N K default (fun i => (eids.getD i 0).toNat) h.rel hc
    (by intro i hi; exact hpos i (by rw [← h.zones]; exact hi))
    (by rw [h.zones]; exact h.pos) hcount
    (by
      intro i hi
      have hg := hget i hi
      refine ⟨O2M.rd_nat _ _ _ hg, ?_⟩
      have := he _ (List.mem_of_getElem? hg)
      omega)
    h.data hf ⟨h.names, h.nums, fun x hx => (hid x hx).1⟩ (fun x hx => (hid x hx).2) h.known
    (by
      intro i d i' d' id hs hs' heq h1 h2
      refine ho i d i' d' id hs hs' ?_ h1 h2
      rw [hget i hs.1, hget i' hs'.1]
      have heq : (eids.getD i 0).toNat = (eids.getD i' 0).toNat := heq
      rw [heq])
    hK (by rw [e1]; exact hz) fuel hfuel
  simp only [e1, e2] at this
  exact this

/-! ### multi-buffer matsets -/

private theorem multiMap_wf {wrap : Int → Int} {K : Nat} {vfs : List (Str × List α)} {mm : Option (List (Str × Int))} (h : MapOK K vfs mm)
    (hn : (vfs.map (·.1)).Nodup) (hK : Fits wrap K) :
    MapWF (multiMap wrap mm vfs) ∧ (∀ x ∈ multiMap wrap mm vfs, x.2 ≤ K) ∧ ∀ n ∈ vfs.map (·.1), n ∈ (multiMap wrap mm vfs).map (·.1) := by
  cases mm with
  | some m => exact h
  | none =>
    have hle : vfs.length ≤ K := h
    have heq : multiMap wrap none vfs = vfs.zipIdx.map fun x => (x.1.1, (x.2 : Int)) := by
      unfold multiMap
      apply List.map_congr_left
      rintro ⟨x, i⟩ hx
      obtain ⟨hlt, _⟩ := List.getElem?_eq_some_iff.mp (List.mem_zipIdx_iff_getElem?.mp hx)
      simp only at hlt
      rw [hK _ (by omega) (by omega)]
    rw [heq]
    have hb : ∀ x ∈ vfs.zipIdx.map fun x => (x.1.1, (x.2 : Int)), 0 ≤ x.2 ∧ x.2 ≤ K := by
      rintro ⟨n, i⟩ hx
      obtain ⟨m, c, hm, rfl⟩ := (mem_matmap vfs n i).mp hx
      obtain ⟨hlt, _⟩ := List.getElem?_eq_some_iff.mp hm
      simp only
      omega
    exact ⟨⟨by rw [matmap_names]; exact hn, matmap_nums vfs, fun x hx => (hb x hx).1⟩, fun x hx => (hb x hx).2, by rw [matmap_names]; exact fun n h => h⟩

private theorem multi_decode (wrap : Int → Int) (big : α → Bool) (zero : β) (mm : Option (List (Str × Int))) (vfs : List (Str × List α))
    (eids : Option (List (Str × List Int))) (fvs : List (Str × List β)) (N K : Nat) (dα : α) (el : Str → Nat → Nat)
    (hvn : (vfs.map (·.1)).Nodup) (hfn : (fvs.map (·.1)).Nodup) (hm : MapOK K vfs mm) (hK : Fits wrap K)
    (hcount : multiCount vfs eids = .ok (N : Int))
    (hel : ∀ n vs, (n, vs) ∈ vfs → ∃ es, eidsOf eids n = .ok es ∧ ∀ k < vs.length, elemAt es (k : Int) = .ok (el n k : Int) ∧ el n k < N)
    (hsub : ∀ n ws, (n, ws) ∈ fvs → ∃ vs, (n, vs) ∈ vfs ∧ vs.length = ws.length)
    (hinj : ∀ n vs, (n, vs) ∈ vfs → ∀ k k', k < vs.length → k' < vs.length → el n k = el n k' → k = k')
    (H : Nat → Str → α → Prop) (hH : ∀ e n v, H e n v ↔ ∃ vs k, (n, vs) ∈ vfs ∧ vs[k]? = some v ∧ el n k = e)
    (hz : NoEmpty N big H) :
    ∃ O, multiSilo wrap big zero mm vfs eids fvs = .ok O ∧ (∀ m, mm = some m → O.matmap = m) ∧ (O.mixMat.length ≤ K → Decodes O N big H ∧
      (vfs.map (·.1) ⊆ fvs.map (·.1) → ∀ e n v w, SiloMix2 O e n v w ↔
        ((∃ vs ws k, (n, vs) ∈ vfs ∧ (n, ws) ∈ fvs ∧ vs[k]? = some v ∧ ws[k]? = some w ∧ el n k = e) ∧ big v = true) ∧ Other big H e n)) := by
  obtain ⟨hmm, hmK, hknown⟩ := multiMap_wf hm hvn hK
  have hnum : ∀ n, n ∈ vfs.map (·.1) → ∃ id, oget (multiMap wrap mm vfs) n = some id ∧ (n, id) ∈ multiMap wrap mm vfs := by
    intro n hn
    obtain ⟨⟨n', id⟩, hx, rfl⟩ := List.mem_map.mp (hknown n hn)
    exact ⟨id, (oget_nodup hmm.names _ _).mp hx, hx⟩
  obtain ⟨num, hnumdef⟩ : ∃ num : Str → Int, num = fun n => (oget (multiMap wrap mm vfs) n).getD 0 := ⟨_, rfl⟩
  have hnum1 : ∀ n vs, (n, vs) ∈ vfs → named (multiMap wrap mm vfs) n = .ok (num n) ∧ (n, num n) ∈ multiMap wrap mm vfs := by
    intro n vs h
    obtain ⟨id, h1, h2⟩ := hnum n (List.mem_map.mpr ⟨_, h, rfl⟩)
    unfold named
    simp only [hnumdef, h1, Option.getD_some]
    exact ⟨trivial, h2⟩
  obtain ⟨vf, hvf, hB1⟩ := multiVfs_spec big dα (multiMap wrap mm vfs) eids N num el vfs
    (fun n vs h => ⟨(hnum1 n vs h).1, hel n vs h⟩) [] (List.replicate N []) (.nil N)
  rw [List.nil_append] at hB1
  obtain ⟨mv, hmv, hB2⟩ := multiFvs_spec zero (multiMap wrap mm vfs) eids vf N hB1.len num el fvs
    (by
      intro n ws h
      obtain ⟨vs, hvs, hl⟩ := hsub n ws h
      obtain ⟨es, h1, h2⟩ := hel n vs hvs
      exact ⟨(hnum1 n vs hvs).1, es, h1, by rw [← hl]; exact h2⟩) [] (List.replicate N []) (.nil N)
  rw [List.nil_append] at hB2
  have hx1 : ∀ e id v, (e, id, v) ∈ (vfs.flatMap fun x => mentries (fun _ => big) (num x.1) (el x.1) x.2 dα) ↔
      ∃ n vs k, (n, vs) ∈ vfs ∧ vs[k]? = some v ∧ big v = true ∧ e = el n k ∧ id = num n := by
    intro e id v
    simp only [List.mem_flatMap]
    constructor
    · rintro ⟨⟨n, vs⟩, hmem, hx⟩
      obtain ⟨k, a, b, c, d⟩ := (mem_mentries _ _ _ _ _ _).mp hx
      exact ⟨n, vs, k, hmem, a, b, c, d⟩
    · rintro ⟨n, vs, k, hmem, a, b, c, d⟩
      exact ⟨(n, vs), hmem, (mem_mentries _ _ _ _ _ _).mpr ⟨k, a, b, c, d⟩⟩
  have hkey : ∀ n vs k n' vs' k', (n, vs) ∈ vfs → (n', vs') ∈ vfs → k < vs.length → k' < vs'.length → el n k = el n' k' → num n = num n' →
      n = n' ∧ vs = vs' ∧ k = k' := by
    intro n vs k n' vs' k' h1 h2 hk hk' he hi
    have a := (hnum1 n vs h1).2
    have b := (hnum1 n' vs' h2).2
    rw [hi] at a
    have := map_name hmm a b
    subst this
    have := mem_unique hvn h1 h2
    subst this
    exact ⟨rfl, rfl, hinj n vs h1 k k' hk hk' he⟩
  have hu1 : ∀ e id v v', (e, id, v) ∈ (vfs.flatMap fun x => mentries (fun _ => big) (num x.1) (el x.1) x.2 dα) →
      (e, id, v') ∈ (vfs.flatMap fun x => mentries (fun _ => big) (num x.1) (el x.1) x.2 dα) → v = v' := by
    intro e id v v' h1 h2
    obtain ⟨n, vs, k, a, b, _, c, d⟩ := (hx1 _ _ _).mp h1
    obtain ⟨n', vs', k', a', b', _, c', d'⟩ := (hx1 _ _ _).mp h2
    obtain ⟨hk, _⟩ := List.getElem?_eq_some_iff.mp b
    obtain ⟨hk', _⟩ := List.getElem?_eq_some_iff.mp b'
    obtain ⟨rfl, rfl, rfl⟩ := hkey n vs k n' vs' k' a a' hk hk' (c.symm.trans c') (d.symm.trans d')
    rw [b] at b'
    simpa using b'
  have hholds : Holds (multiMap wrap mm vfs) vf N big H := by
    refine ⟨hB1.len, hB1.sorted, ?_, ?_⟩
    · intro e m hm' id v
      rw [mem_iff_iget (hB1.sorted m (List.mem_of_getElem? hm')), hB1.mem hu1 hm', hx1]
      constructor
      · rintro ⟨n, vs, k, a, b, hb, rfl, rfl⟩
        exact ⟨n, (hnum1 n vs a).2, (hH _ _ _).mpr ⟨vs, k, a, b, rfl⟩, hb⟩
      · rintro ⟨n, hn, hh, hb⟩
        obtain ⟨vs, k, a, b, rfl⟩ := (hH _ _ _).mp hh
        exact ⟨n, vs, k, a, b, hb, rfl, map_num hmm hn (hnum1 n vs a).2⟩
    · intro e n v hh
      obtain ⟨vs, k, a, b, rfl⟩ := (hH _ _ _).mp hh
      obtain ⟨hk, _⟩ := List.getElem?_eq_some_iff.mp b
      obtain ⟨es, _, h2⟩ := hel n vs a
      exact ⟨(h2 k hk).2, List.mem_map.mpr ⟨_, (hnum1 n vs a).2, rfl⟩⟩
  have hx2 : ∀ e id w, (e, id, w) ∈ (fvs.flatMap fun x => mentries (fun k _ => (iget (vf.getD (el x.1 k) []) (num x.1)).isSome) (num x.1) (el x.1) x.2 zero) ↔
      ∃ n ws vs k v, (n, ws) ∈ fvs ∧ (n, vs) ∈ vfs ∧ ws[k]? = some w ∧ vs[k]? = some v ∧ big v = true ∧ e = el n k ∧ id = num n := by
    intro e id w
    have hkeep : ∀ n vs k, (n, vs) ∈ vfs → k < vs.length → ((iget (vf.getD (el n k) []) (num n)).isSome = true ↔ big (vs.getD k dα) = true) := by
      intro n vs k h1 hk
      have hlt : el n k < vf.length := by
        obtain ⟨es, _, h2⟩ := hel n vs h1
        rw [hB1.len]; exact (h2 k hk).2
      have hv : vf[el n k]? = some (vf.getD (el n k) []) := by simp [List.getD, List.getElem?_eq_getElem hlt]
      have hvk : vs[k]? = some (vs.getD k dα) := by simp [List.getD, List.getElem?_eq_getElem hk]
      rw [Option.isSome_iff_exists]
      constructor
      · rintro ⟨v, hv'⟩
        rw [hB1.mem hu1 hv, hx1] at hv'
        obtain ⟨n', vs', k', a', b', hb, c', d'⟩ := hv'
        obtain ⟨hk', _⟩ := List.getElem?_eq_some_iff.mp b'
        obtain ⟨rfl, rfl, rfl⟩ := hkey n vs k n' vs' k' h1 a' hk hk' c' d'
        rw [hvk] at b'
        simp only [Option.some.injEq] at b'
        rw [b']; exact hb
      · intro hb
        exact ⟨vs.getD k dα, (hB1.mem hu1 hv _ _).mpr ((hx1 _ _ _).mpr ⟨n, vs, k, h1, hvk, hb, rfl, rfl⟩)⟩
    simp only [List.mem_flatMap]
    constructor
    · rintro ⟨⟨n, ws⟩, hmem, hx⟩
      obtain ⟨k, a, b, c, d⟩ := (mem_mentries _ _ _ _ _ _).mp hx
      obtain ⟨vs, hvs, hl⟩ := hsub n ws hmem
      obtain ⟨hk, _⟩ := List.getElem?_eq_some_iff.mp a
      simp only at hk
      have hk' : k < vs.length := by omega
      exact ⟨n, ws, vs, k, vs.getD k dα, hmem, hvs, a, by simp [List.getD, List.getElem?_eq_getElem hk'], (hkeep n vs k hvs hk').mp b, c, d⟩
    · rintro ⟨n, ws, vs, k, v, hmem, hvs, a, b, hb, c, d⟩
      obtain ⟨hk, _⟩ := List.getElem?_eq_some_iff.mp b
      refine ⟨(n, ws), hmem, (mem_mentries _ _ _ _ _ _).mpr ⟨k, a, (hkeep n vs k hvs hk).mpr ?_, c, d⟩⟩
      simp only [List.getD, b, Option.getD_some]; exact hb
  obtain ⟨O, h1, h2, h3⟩ := finish (wrap := wrap) (M := ⟨vf, mv⟩) (K := K) zero
    (fun e n v w => ∃ vs ws k, (n, vs) ∈ vfs ∧ (n, ws) ∈ fvs ∧ vs[k]? = some v ∧ ws[k]? = some w ∧ el n k = e) hholds hB2.len hmm hK hmK hz
    (vfs.map (·.1) ⊆ fvs.map (·.1))
    (by
      rintro _ e n v w ⟨vs, ws, k, a, _, b, _, c⟩
      exact (hH _ _ _).mpr ⟨vs, k, a, b, c⟩)
    (by
      intro hff e n v hh
      obtain ⟨vs, k, a, b, c⟩ := (hH _ _ _).mp hh
      obtain ⟨⟨n', ws⟩, hw, rfl⟩ := List.mem_map.mp (hff (List.mem_map.mpr ⟨_, a, rfl⟩))
      obtain ⟨vs', hvs', hl⟩ := hsub n' ws hw
      have := mem_unique hvn a hvs'
      subst this
      obtain ⟨hk, _⟩ := List.getElem?_eq_some_iff.mp b
      exact ⟨_, vs, ws, k, a, hw, b, List.getElem?_eq_getElem (by omega), c⟩)
    (by
      intro hff e f n id w hf hn
      have hu2 : ∀ e id w w', (e, id, w) ∈ (fvs.flatMap fun x => mentries (fun k _ => (iget (vf.getD (el x.1 k) []) (num x.1)).isSome) (num x.1) (el x.1) x.2 zero) →
          (e, id, w') ∈ (fvs.flatMap fun x => mentries (fun k _ => (iget (vf.getD (el x.1 k) []) (num x.1)).isSome) (num x.1) (el x.1) x.2 zero) → w = w' := by
        intro e id w w' h1 h2
        obtain ⟨n, ws, vs, k, v, a, b, c, d, _, f1, g1⟩ := (hx2 _ _ _).mp h1
        obtain ⟨n', ws', vs', k', v', a', b', c', d', _, f1', g1'⟩ := (hx2 _ _ _).mp h2
        obtain ⟨hk, _⟩ := List.getElem?_eq_some_iff.mp d
        obtain ⟨hk', _⟩ := List.getElem?_eq_some_iff.mp d'
        obtain ⟨rfl, rfl, rfl⟩ := hkey n vs k n' vs' k' b b' hk hk' (f1.symm.trans f1') (g1.symm.trans g1')
        have := mem_unique hfn a a'
        subst this
        rw [c] at c'
        simpa using c'
      rw [hB2.mem hu2 hf, hx2]
      constructor
      · rintro ⟨n', ws, vs, k, v, a, b, c, d, hb, rfl, rfl⟩
        have := map_name hmm hn (hnum1 n' vs b).2
        subst this
        exact ⟨v, ⟨vs, ws, k, b, a, d, c, rfl⟩, hb⟩
      · rintro ⟨v, ⟨vs, ws, k, b, a, d, c, rfl⟩, hb⟩
        exact ⟨n, ws, vs, k, v, a, b, c, d, hb, rfl, map_num hmm hn (hnum1 n vs b).2⟩)
  refine ⟨O, ?_, ?_, h3⟩
  · unfold multiSilo multiMaps
    rw [hcount, Res.bind_ok]
    have hvf' : multiVfs big (multiMap wrap mm vfs) eids vfs (List.replicate (N : Int).toNat []) = .ok vf := hvf
    have hmv' : multiFvs (multiMap wrap mm vfs) eids vf fvs (List.replicate (N : Int).toNat []) = .ok mv := hmv
    rw [hvf', Res.bind_ok, hmv', Res.bind_ok, Res.bind_ok]
    exact h1
  · rintro m rfl
    exact h2

/-- C68, full: with a material above epsilon in every element, what is read from the arrays made by
    `to_silo` is the mixture of every element (and the field beside it, for a field on the same
    materials and elements).  `fvs = []` is the call without a field. -/
theorem C68_full [Inhabited α] (wrap : Int → Int) (big : α → Bool) (zero : β) (mm : Option (List (Str × Int))) (vfs : List (Str × List α))
    (fvs : List (Str × List β)) (N K : Nat) (h : FullWF vfs N) (hne : vfs ≠ []) (hf : FullWF fvs N) (hsub : fvs.map (·.1) ⊆ vfs.map (·.1))
    (hm : MapOK K vfs mm) (hK : Fits wrap K) (hz : NoEmpty N big (FullHas vfs)) :
    ∃ O, multiSilo wrap big zero mm vfs none fvs = .ok O ∧ (∀ m, mm = some m → O.matmap = m) ∧ (O.mixMat.length ≤ K → Decodes O N big (FullHas vfs) ∧
      (vfs.map (·.1) ⊆ fvs.map (·.1) → ∀ e n v w, SiloMix2 O e n v w ↔
        ((FullHas vfs e n v ∧ FullHas fvs e n w) ∧ big v = true) ∧ Other big (FullHas vfs) e n)) := by
  obtain ⟨O, h1, h2, h3⟩ := multi_decode wrap big zero mm vfs none fvs N K default (fun _ k => k) h.names hf.names hm hK
    (by
      cases vfs with
      | nil => exact absurd rfl hne
      | cons c rest =>
        have := h.len c List.mem_cons_self
        unfold multiCount firstLen
        simp only [this, Res.map']
        rfl)
    (by
      intro n vs hv
      refine ⟨none, rfl, fun k hk => ⟨rfl, ?_⟩⟩
      have := h.len _ hv
      simp only at this
      omega)
    (by
      intro n ws hw
      obtain ⟨⟨n', vs⟩, hv, rfl⟩ := List.mem_map.mp (hsub (List.mem_map.mpr ⟨_, hw, rfl⟩))
      exact ⟨vs, hv, (h.len _ hv).trans (hf.len _ hw).symm⟩)
    (fun _ _ _ k k' _ _ heq => heq) (FullHas vfs)
    (by
      intro e n v
      constructor
      · rintro ⟨c, a, b⟩; exact ⟨c, e, a, b, rfl⟩
      · rintro ⟨c, k, a, b, rfl⟩; exact ⟨c, a, b⟩) hz
  refine ⟨O, h1, h2, fun hl => ⟨(h3 hl).1, fun hff e n v w => ?_⟩⟩
  rw [(h3 hl).2 hff]
  have : (∃ vs ws k, (n, vs) ∈ vfs ∧ (n, ws) ∈ fvs ∧ vs[k]? = some v ∧ ws[k]? = some w ∧ k = e) ↔ FullHas vfs e n v ∧ FullHas fvs e n w := by
    constructor
    · rintro ⟨vs, ws, k, a, b, c, d, rfl⟩; exact ⟨⟨vs, a, c⟩, ws, b, d⟩
    · rintro ⟨⟨vs, a, c⟩, ws, b, d⟩; exact ⟨vs, ws, e, a, b, c, d, rfl⟩
  rw [this]

/-- C68, sparse by material. -/
theorem C68_material [Inhabited α] (wrap : Int → Int) (big : α → Bool) (zero : β) (mm : Option (List (Str × Int))) (vfs : List (Str × List α))
    (eids : List (Str × List Int)) (fvs : List (Str × List β)) (N K : Nat) (h : SbmWF eids vfs) (he : ∀ n es x, (n, es) ∈ eids → x ∈ es → 0 ≤ x ∧ x < N)
    (ho : SbmOnce eids) (hfn : (fvs.map (·.1)).Nodup) (hsub : ∀ n ws, (n, ws) ∈ fvs → ∃ es, (n, es) ∈ eids ∧ es.length = ws.length)
    (hm : MapOK K vfs mm) (hK : Fits wrap K) (hz : NoEmpty N big (SbmHas eids vfs)) :
    ∃ O, multiSilo wrap big zero mm vfs (some eids) fvs = .ok O ∧ (∀ m, mm = some m → O.matmap = m) ∧ (O.mixMat.length ≤ K → Decodes O N big (SbmHas eids vfs) ∧
      (vfs.map (·.1) ⊆ fvs.map (·.1) → ∀ e n v w, SiloMix2 O e n v w ↔
        (SbmHas2 eids vfs fvs e n v w ∧ big v = true) ∧ Other big (SbmHas eids vfs) e n)) := by
  have hids : ∀ n vs, (n, vs) ∈ vfs → ∃ es, (n, es) ∈ eids ∧ es.length = vs.length ∧ oget eids n = some es := by
    intro n vs hv
    obtain ⟨⟨n', es⟩, hx, rfl⟩ := List.mem_map.mp ((h.same n).mpr (List.mem_map.mpr ⟨_, hv, rfl⟩))
    exact ⟨es, hx, h.len _ _ _ hx hv, (oget_nodup h.enames _ _).mp hx⟩
  obtain ⟨el, hel⟩ : ∃ el : Str → Nat → Nat, el = fun n k => (((oget eids n).getD []).getD k 0).toNat := ⟨_, rfl⟩
  have hel1 : ∀ n es k, (n, es) ∈ eids → k < es.length → es[k]? = some (el n k : Int) ∧ el n k < N := by
    intro n es k hx hk
    have h1 := (oget_nodup h.enames _ _).mp hx
    have h2 := he n es _ hx (List.getElem_mem hk)
    simp only [hel, h1, Option.getD_some, List.getD, List.getElem?_eq_getElem hk, Option.some.injEq]
    omega
  have key : ∀ n vs k (e : Nat), (n, vs) ∈ vfs → k < vs.length → (el n k = e ↔ ∃ es, (n, es) ∈ eids ∧ es[k]? = some (e : Int)) := by
    intro n vs k e hv hk
    obtain ⟨es, hx, hl, _⟩ := hids n vs hv
    have h1 := (hel1 n es k hx (by omega)).1
    constructor
    · rintro rfl; exact ⟨es, hx, h1⟩
    · rintro ⟨es', hx', h2⟩
      have := mem_unique h.enames hx hx'
      subst this
      rw [h1] at h2
      simp only [Option.some.injEq] at h2
      omega
  obtain ⟨O, h1, h2, h3⟩ := multi_decode wrap big zero mm vfs (some eids) fvs N K default el h.vnames hfn hm hK
    (by
      have : maxElem (eids.flatMap (·.2)) = (N : Int) := by
        refine maxElem_eq _ N ?_ ?_
        · intro x hx
          obtain ⟨⟨n, es⟩, a, b⟩ := List.mem_flatMap.mp hx
          exact (he n es x a b).2
        · intro e heN
          obtain ⟨n, v, ⟨es, _, k, a, _, b, _⟩, _⟩ := hz e heN
          exact List.mem_flatMap.mpr ⟨_, a, List.mem_of_getElem? b⟩
      unfold multiCount
      simp only [this])
    (by
      intro n vs hv
      obtain ⟨es, hx, hl, hg⟩ := hids n vs hv
      refine ⟨some es, by unfold eidsOf named; simp only [hg, Res.bind_ok], fun k hk => ?_⟩
      obtain ⟨a, b⟩ := hel1 n es k hx (by omega)
      exact ⟨O2M.rd_nat _ _ _ a, b⟩)
    (by
      intro n ws hw
      obtain ⟨es, hx, hl⟩ := hsub n ws hw
      obtain ⟨⟨n', vs⟩, hv, rfl⟩ := List.mem_map.mp ((h.same n).mp (List.mem_map.mpr ⟨_, hx, rfl⟩))
      exact ⟨vs, hv, (h.len _ _ _ hx hv).symm.trans hl⟩)
    (by
      intro n vs hv k k' hk hk' heq
      obtain ⟨es, hx, hl, _⟩ := hids n vs hv
      have a := (hel1 n es k hx (by omega)).1
      have b := (hel1 n es k' hx (by omega)).1
      rw [heq, ← b] at a
      exact (List.getElem?_inj (by omega) (ho n es hx)).mp a)
    (SbmHas eids vfs)
    (by
      intro e n v
      constructor
      · rintro ⟨es, vs, k, a, b, c, d⟩
        obtain ⟨hk, _⟩ := List.getElem?_eq_some_iff.mp d
        exact ⟨vs, k, b, d, (key n vs k e b hk).mpr ⟨es, a, c⟩⟩
      · rintro ⟨vs, k, b, d, hk'⟩
        obtain ⟨hk, _⟩ := List.getElem?_eq_some_iff.mp d
        obtain ⟨es, a, c⟩ := (key n vs k e b hk).mp hk'
        exact ⟨es, vs, k, a, b, c, d⟩) hz
  refine ⟨O, h1, h2, fun hl => ⟨(h3 hl).1, fun hff e n v w => ?_⟩⟩
  rw [(h3 hl).2 hff]
  have : (∃ vs ws k, (n, vs) ∈ vfs ∧ (n, ws) ∈ fvs ∧ vs[k]? = some v ∧ ws[k]? = some w ∧ el n k = e) ↔ SbmHas2 eids vfs fvs e n v w := by
    constructor
    · rintro ⟨vs, ws, k, a, b, c, d, hk'⟩
      obtain ⟨hk, _⟩ := List.getElem?_eq_some_iff.mp c
      obtain ⟨es, x, y⟩ := (key n vs k e a hk).mp hk'
      exact ⟨es, vs, ws, k, x, a, b, y, c, d⟩
    · rintro ⟨es, vs, ws, k, x, a, b, y, c, d⟩
      obtain ⟨hk, _⟩ := List.getElem?_eq_some_iff.mp c
      exact ⟨vs, ws, k, a, b, c, d, (key n vs k e a hk).mpr ⟨es, x, y⟩⟩
  rw [this]

/-! ### the hypotheses can be met -/

private def mA : Str := chars! "a"
private def mB : Str := chars! "b"
private def big0 (v : Nat) : Bool := decide (0 < v)

/-- two materials over three elements, the middle one mixed -/
private def exFull : List (Str × List Nat) := [(mB, [0, 4, 7]), (mA, [9, 5, 0])]
private def exFullF : List (Str × List Nat) := [(mA, [90, 50, 1]), (mB, [2, 40, 70])]

private theorem exFull_big : NoEmpty 3 big0 (FullHas exFull) := by
  intro e he
  match e, he with
  | 0, _ => exact ⟨mA, 9, ⟨[9, 5, 0], by decide +kernel, rfl⟩, rfl⟩
  | 1, _ => exact ⟨mA, 5, ⟨[9, 5, 0], by decide +kernel, rfl⟩, rfl⟩
  | 2, _ => exact ⟨mB, 7, ⟨[0, 4, 7], by decide +kernel, rfl⟩, rfl⟩

example : FullWF exFull 3 ∧ FullWF exFullF 3 ∧ (exFullF.map (·.1) ⊆ exFull.map (·.1) ∧ exFull.map (·.1) ⊆ exFullF.map (·.1)) ∧
    MapOK 5 exFull none ∧ Fits id 5 ∧ NoEmpty 3 big0 (FullHas exFull) ∧
    multiSilo id big0 0 none exFull none exFullF = .ok
      { matmap := [(mB, 0), (mA, 1)], matlist := [1, -1, 0], mixNext := [2, 0], mixMat := [0, 1], mixVf := [4, 5], mixVar := [40, 50] } :=
  ⟨⟨by decide +kernel, by decide +kernel⟩, ⟨by decide +kernel, by decide +kernel⟩, ⟨by decide +kernel, by decide +kernel⟩,
    by show 2 ≤ 5; omega, fun _ _ _ => rfl, exFull_big, by decide +kernel⟩

/-- the same mixture, sparse by material, its materials numbered by a given map -/
private def exIds : List (Str × List Int) := [(mB, [2, 1]), (mA, [0, 1])]
private def exVfs : List (Str × List Nat) := [(mA, [9, 5]), (mB, [7, 4])]
private def exMap : List (Str × Int) := [(mA, 5), (mB, 2)]

private theorem ex_names {γ δ : Type} {x y : γ} {u v : δ} (n : Str) (es : γ) (vs : δ) :
    (n, es) ∈ [(mB, x), (mA, y)] → (n, vs) ∈ [(mA, v), (mB, u)] → (es = x ∧ vs = u) ∨ (es = y ∧ vs = v) := by
  have hne : mA ≠ mB := by decide +kernel
  simp only [List.mem_cons, List.not_mem_nil, or_false, Prod.mk.injEq]
  rintro (⟨rfl, rfl⟩ | ⟨rfl, rfl⟩) (⟨h, rfl⟩ | ⟨h, rfl⟩)
  · exact absurd h.symm hne
  · exact .inl ⟨rfl, rfl⟩
  · exact .inr ⟨rfl, rfl⟩
  · exact absurd h hne

example : SbmWF exIds exVfs ∧ (∀ n es x, (n, es) ∈ exIds → x ∈ es → 0 ≤ x ∧ x < 3) ∧ SbmOnce exIds ∧ MapOK 5 exVfs (some exMap) ∧ Fits id 5 ∧
    NoEmpty 3 big0 (SbmHas exIds exVfs) ∧
    multiSilo id big0 0 (some exMap) exVfs (some exIds) [(mB, [70, 40]), (mA, [90, 50])] = .ok
      { matmap := [(mA, 5), (mB, 2)], matlist := [5, -1, 2], mixNext := [2, 0], mixMat := [2, 5], mixVf := [4, 5], mixVar := [40, 50] } := by
  refine ⟨⟨by decide +kernel, by decide +kernel, ?_, ?_⟩, ?_, ?_, ⟨⟨by decide +kernel, by decide +kernel, by decide +kernel⟩, by decide +kernel, by decide +kernel⟩,
    fun _ _ _ => rfl, ?_, by decide +kernel⟩
  · intro n
    simp only [exIds, exVfs, List.map_cons, List.map_nil, List.mem_cons, List.not_mem_nil, or_false]
    exact Or.comm
  · intro n es vs h1 h2
    rcases ex_names n es vs h1 h2 with ⟨rfl, rfl⟩ | ⟨rfl, rfl⟩ <;> rfl
  · intro n es x h1 h2
    simp only [exIds, List.mem_cons, List.not_mem_nil, or_false, Prod.mk.injEq] at h1
    rcases h1 with ⟨_, rfl⟩ | ⟨_, rfl⟩ <;> simp only [List.mem_cons, List.not_mem_nil, or_false] at h2 <;> omega
  · intro n es h1
    simp only [exIds, List.mem_cons, List.not_mem_nil, or_false, Prod.mk.injEq] at h1
    rcases h1 with ⟨_, rfl⟩ | ⟨_, rfl⟩ <;> decide
  · intro e he
    match e, he with
    | 0, _ => exact ⟨mA, 9, ⟨[0, 1], [9, 5], 0, by decide +kernel, by decide +kernel, rfl, rfl⟩, rfl⟩
    | 1, _ => exact ⟨mA, 5, ⟨[0, 1], [9, 5], 1, by decide +kernel, by decide +kernel, rfl, rfl⟩, rfl⟩
    | 2, _ => exact ⟨mB, 7, ⟨[2, 1], [7, 4], 0, by decide +kernel, by decide +kernel, rfl, rfl⟩, rfl⟩

private theorem exSbe_cons : Consecutive exSbe.rel := by
  have hz : ones exSbe.rel = 2 := by decide +kernel
  intro i hi j hj
  rw [hz] at hi
  match i, hi with
  | 0, _ => match j, hj with
    | 0, _ => decide +kernel
  | 1, _ => match j, hj with
    | 0, _ => decide +kernel
    | 1, _ => decide +kernel

example : SbeWF exSbe 2 ∧ Once exSbe ∧ Consecutive exSbe.rel ∧ (∀ x ∈ exSbe.matmap, 0 ≤ x.2 ∧ x.2 ≤ (5 : Nat)) ∧ NoEmpty 2 big0 (SbeHas exSbe exSbe.vals) ∧
    uniSilo id big0 0 exSbe none (some [60, 40, 90]) 20 = some (.ok
      { matmap := [(mB, 5), (mA, 2)], matlist := [5, -1], mixNext := [2, 0], mixMat := [2, 5], mixVf := [6, 4], mixVar := [60, 40] }) := by
  refine ⟨exSbeWF, exOnce, exSbe_cons, by decide +kernel, ?_, by decide +kernel⟩
  intro e he
  match e, he with
  | 0, _ => exact ⟨mB, 9, ⟨2, 5, ⟨by decide +kernel, 0, by decide +kernel, by decide +kernel⟩, rfl, by decide +kernel, rfl⟩, rfl⟩
  | 1, _ => exact ⟨mA, 6, ⟨0, 2, ⟨by decide +kernel, 0, by decide +kernel, by decide +kernel⟩, rfl, by decide +kernel, rfl⟩, rfl⟩

example : SbeWF exSbe 2 ∧ UbmOnce exSbe [1, 0] ∧ (∀ i < 2, 0 < size exSbe.rel i) ∧ NoEmpty 2 big0 (UbmHas exSbe [1, 0] exSbe.vals) ∧
    uniSilo id big0 0 exSbe (some [1, 0]) (some [60, 40, 90]) 20 = some (.ok
      { matmap := [(mB, 5), (mA, 2)], matlist := [-1, 5], mixNext := [2, 0], mixMat := [2, 5], mixVf := [6, 4], mixVar := [60, 40] }) := by
  refine ⟨exSbeWF, ?_, by decide +kernel, ?_, by decide +kernel⟩
  · rintro i d i' d' id ⟨hi, j, hj, ht⟩ ⟨hi', j', hj', ht'⟩ heq h1 h2
    have hz : ones exSbe.rel = 2 := by decide +kernel
    have : i = i' := (List.getElem?_inj (by show i < 2; omega) (by decide)).mp heq
    subst this
    have := exOnce i j j' id hi hj hj' (by rw [ht]; exact h1) (by rw [ht']; exact h2)
    subst this
    omega
  · intro e he
    match e, he with
    | 1, _ => exact ⟨mB, 9, ⟨0, 2, 5, ⟨by decide +kernel, 0, by decide +kernel, by decide +kernel⟩, rfl, rfl, by decide +kernel, rfl⟩, rfl⟩
    | 0, _ => exact ⟨mA, 6, ⟨1, 0, 2, ⟨by decide +kernel, 0, by decide +kernel, by decide +kernel⟩, rfl, rfl, by decide +kernel, rfl⟩, rfl⟩

/-! ### where the claim fails -/

private def exEmpty : Sbe Nat :=
  { matmap := [(mA, 0)], sizes := some [0, 1], offsets := some [0, 0], indices := none, ids := [0], vals := [7] }

/-- C68 is false for a uni-buffer matset one of whose elements (but the last) lists no material at
    all: the iteration over it never ends. -/
theorem C68_empty_group_never_ends (big : Nat → Bool) (fuel : Nat) : uniSilo id big () exEmpty none none fuel = none := by
  have key : ∀ fuel (s : Maps Nat Unit), oneLoop exEmpty.rel (elemAt none) (uniEntry big exEmpty none) fuel ⟨0, 0⟩ s = none := by
    intro fuel
    induction fuel with
    | zero => intro s; rfl
    | succ k ih =>
      intro s
      have h1 : O2M.hasNext exEmpty.rel ⟨0, 0⟩ .data = .ok true := by decide +kernel
      have h2 : O2M.next exEmpty.rel ⟨0, 0⟩ .one = .ok (⟨0, 1⟩, 0) := by decide +kernel
      have h3 : O2M.hasNext exEmpty.rel ⟨0, 0⟩ .many = .ok false := by decide +kernel
      unfold oneLoop
      simp only [h1, h2, Res.bind_ok, elemAt, O2M.toFront]
      cases k with
      | zero => rfl
      | succ k =>
        have : manyLoop exEmpty.rel (uniEntry big exEmpty none 0) (k + 1) ⟨0, 0⟩ s = some (.ok (⟨0, 0⟩, s)) := by
          unfold manyLoop
          simp only [h3]
        rw [this]
        exact ih s
  unfold uniSilo uniMaps
  rw [key]

/-- C68 is false for an element none of whose materials is above epsilon: the conversion fails. -/
theorem C68_empty_zone_is_error : multiSilo id big0 () none [(mA, [9, 0]), (mB, [4, 0])] none ([] : List (Str × List Unit)) = .error := by decide +kernel

/-- C68 is false for groups that are not consecutive: the relation says that element 0 holds `b`
    with fraction 9 (at position 2), what is written for it is 4 (at position 1). -/
theorem C68_scattered_group_misread :
    uniSilo id big0 () { matmap := [(mA, 2), (mB, 5)], sizes := some [2, 1], offsets := some [0, 2], indices := some [0, 2, 1],
                         ids := [2, 5, 5], vals := [6, 4, 9] } none none 20 = some (.ok
      { matmap := [(mA, 2), (mB, 5)], matlist := [-1, 5], mixNext := [2, 0], mixMat := [2, 5], mixVf := [6, 4], mixVar := [(), ()] }) ∧
    (fun S : Sbe Nat => target S.rel 0 1 = 2)
      { matmap := [(mA, 2), (mB, 5)], sizes := some [2, 1], offsets := some [0, 2], indices := some [0, 2, 1], ids := [2, 5, 5], vals := [6, 4, 9] } := by
  decide +kernel

/-- conversion to a signed 8 bit integer -/
private def int8 (x : Int) : Int := (x + 128) % 256 - 128

/-- C68 is false when the arrays outgrow the integer type of the matset (the widest one found in it,
    at times no wider than 8 bits): the 65th of 65 mixed elements is written as a clean one,
    of a material 127 which is not there. -/
theorem C68_narrow_ids_overflow :
    (multiSilo int8 big0 () none [(mA, List.replicate 65 1), (mB, List.replicate 65 1)] none ([] : List (Str × List Unit))).map'
      (fun O => (O.matlist[64]?, O.matmap)) = .ok (some 127, [(mA, 0), (mB, 1)]) := by
  decide +kernel

/-- C68 is false for negative material numbers: the clean element 0 is written as if its mixture
    began at position 1 (of an empty list). -/
theorem C68_negative_number_misread :
    multiSilo id big0 () (some [(mA, -1), (mB, 2)]) [(mA, [9, 0]), (mB, [0, 4])] none ([] : List (Str × List Unit)) = .ok
      { matmap := [(mA, -1), (mB, 2)], matlist := [-1, 2], mixNext := [], mixMat := [], mixVf := [], mixVar := [] } := by decide +kernel

/-- The volume fraction of a clean element is not kept, nor is its field value. -/
theorem C68_clean_values_lost : multiSilo id big0 0 none [(mA, [9])] none [(mA, [90])] = multiSilo id big0 0 none [(mA, [3])] none [(mA, [30])] := by
  decide +kernel

/-- C68 is false for a material missing from a given map, or from "element_ids": the conversion fails. -/
theorem C68_unknown_material :
    multiSilo id big0 () (some [(mA, 0)]) [(mA, [9]), (mB, [4])] none ([] : List (Str × List Unit)) = .error ∧
    multiSilo id big0 () none [(mA, [9]), (mB, [4])] (some [(mA, [0])]) ([] : List (Str × List Unit)) = .error := by decide +kernel

end Conduit.Matset
