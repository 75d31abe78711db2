import Verif.Lemmas.Specset
import Verif.Props.Silo
/-
Property theorems C69 (the silo form of a species set).
-/
namespace Conduit.Matset
open Conduit.O2M (rd wr)
variable {α β γ : Type}

private theorem le_sum_of_mem : ∀ {l : List Nat} {x : Nat}, x ∈ l → x ≤ l.sum
  | y :: l, x, h => by
    rcases List.mem_cons.mp h with rfl | h
    · simp
    · have := le_sum_of_mem h
      simp only [List.sum_cons]; omega

/-- the chains of a readable silo matset, clean zones having none -/
private def Chains (O : Silo α β) (C : Nat → List Nat) : Prop :=
  ∀ (e : Nat) (x : Int), O.matlist[e]? = some x → (0 ≤ x → C e = []) ∧ (x < 0 → Chain O.mixNext (-x) (C e))

private theorem exists_chains {O : Silo α β} (h : SiloWF O) : ∃ C, Chains O C := by
  have : ∀ e : Nat, ∃ l : List Nat, ∀ x : Int, O.matlist[e]? = some x → (0 ≤ x → l = []) ∧ (x < 0 → Chain O.mixNext (-x) l) := by
    intro e
    cases hx : O.matlist[e]? with
    | none => exact ⟨[], by simp⟩
    | some x =>
      by_cases h0 : 0 ≤ x
      · refine ⟨[], ?_⟩
        intro y hy
        simp only [Option.some.injEq] at hy
        exact ⟨fun _ => rfl, fun _ => by omega⟩
      · obtain ⟨l, hl, _⟩ := h.chain e x hx (by omega)
        refine ⟨l, ?_⟩
        intro y hy
        simp only [Option.some.injEq] at hy
        subst hy
        exact ⟨fun _ => by omega, fun _ => hl⟩
  exact ⟨fun e => (this e).choose, fun e => (this e).choose_spec⟩

/-- where the entries of a zone begin in "mix_spec" -/
private def off (C : Nat → List Nat) (e : Nat) : Nat := ((List.range e).map fun i => (C i).length).sum

private def idxOf (sp : Specs γ) (pos : List (Int × Nat)) (z : Nat) (no : Int) : Int :=
  specIndex (sp.map (·.2.length)) z ((iget pos no).getD 0)

private theorem run [Inhabited γ] (sp : Specs γ) (O : Silo α β) (C : Nat → List Nat) (hC : Chains O C) (hO : SiloWF O)
    (hsp : SpecWF sp O.matmap O.matlist.length) (fuel : Nat) (hf : off C O.matlist.length < fuel) :
    ∃ (pos : List (Int × Nat)) (R : SpecSilo γ), specToSilo true sp O fuel = some (.ok R) ∧
      (∀ (k : Nat) n id, O.matmap[k]? = some (n, id) → iget pos id = some k) ∧
      R.nmatspec = sp.map (·.2.length) ∧ R.specnames = sp.flatMap (·.2.map (·.1)) ∧ R.mf = (List.range O.matlist.length).flatMap (zoneMf sp) ∧
      R.speclist.length = O.matlist.length ∧ R.mixSpec.length = off C O.matlist.length ∧
      ∀ (e : Nat) (x : Int), O.matlist[e]? = some x → (0 ≤ x → R.speclist[e]? = some (idxOf sp pos e x)) ∧
        (x < 0 → R.speclist[e]? = some (-1 - (off C e : Int)) ∧ ∀ (j d : Nat) (id : Int), (C e)[j]? = some d → O.mixMat[d]? = some id →
          R.mixSpec[off C e + j]? = some (idxOf sp pos e id)) := by
  obtain ⟨pos, hp1, hp2, _⟩ := matPos_spec sp O.matmap 0 [] hsp.names hO.map.nums
  have hmf := specMf_eq sp O.matlist.length (fun m hm s hs => hsp.len m.1 m.2 s.1 s.2 hm hs)
  obtain ⟨ch, hch⟩ : ∃ ch : Nat → List Int, ch = fun e => (C e).map fun d => (O.mixMat[d]?).getD 0 := ⟨_, rfl⟩
  obtain ⟨sl, ms, h1, h2, _, h4, h5⟩ := specZones_spec O (idxOf sp pos) ch fuel O.matlist 0 [] [] (by
    intro e x hx h0
    refine ⟨C e, (hC e x hx).2 h0, ?_, ?_⟩
    · rw [hch, Nat.zero_add, List.map_map]
      apply List.map_congr_left
      intro d hd
      obtain ⟨l, hl, hl'⟩ := hO.chain e x hx h0
      have := chain_unique hl ((hC e x hx).2 h0)
      subst this
      obtain ⟨id, hid, _⟩ := hl' d hd
      simp [hid]
    · obtain ⟨hlt, _⟩ := List.getElem?_eq_some_iff.mp hx
      have : (C e).length ≤ off C O.matlist.length := le_sum_of_mem (List.mem_map.mpr ⟨e, List.mem_range.mpr hlt, rfl⟩)
      omega)
  have hseg : ∀ (e : Nat) (x : Int), O.matlist[e]? = some x → segOf ch (idxOf sp pos) e x = (ch e).map (idxOf sp pos e) := by
    intro e x hx
    unfold segOf
    by_cases h0 : 0 ≤ x
    · rw [if_pos h0, hch]
      simp [(hC e x hx).1 h0]
    · rw [if_neg h0]
  have hoff : ∀ e, e ≤ O.matlist.length → (((O.matlist.take e).zipIdx 0).flatMap fun y => segOf ch (idxOf sp pos) y.2 y.1).length = off C e := by
    intro e he
    rw [flatMap_len]
    unfold off
    congr 1
    apply List.ext_getElem?
    intro i
    rw [List.getElem?_map, List.getElem?_map, List.getElem?_zipIdx]
    by_cases hi : i < e
    · have hx := List.getElem?_eq_getElem (l := O.matlist) (i := i) (by omega)
      rw [List.getElem?_take_of_lt hi, List.getElem?_range hi, hx]
      simp only [Option.map_some, Nat.zero_add, Option.some.injEq]
      rw [hseg i _ hx, hch]
      simp
    · rw [List.getElem?_eq_none (by simp; omega), List.getElem?_eq_none (by simp; omega)]; rfl
  refine ⟨pos, ⟨sp.map (·.2.length), sp.flatMap (·.2.map (·.1)), (List.range O.matlist.length).flatMap (zoneMf sp), sl, ms⟩, ?_, ?_, rfl, rfl, rfl, ?_, ?_, ?_⟩
  · unfold specToSilo
    have hl : O.matmap.length = sp.length := by
      have := congrArg List.length hsp.names
      simpa using this.symm
    rw [if_pos hl, hp1]
    simp only [hmf]
    have h1' : specZones O (fun z no => specIndex (sp.map (·.2.length)) z ((iget pos no).getD 0)) fuel O.matlist 0 ([], [], -1) =
      some (.ok (sl, ms, -1 - (ms.length : Int))) := h1
    rw [h1']
  · intro k n id hk
    rw [hp2 k n id hk, Nat.zero_add]
  · simpa using h2
  · have := hoff O.matlist.length (Nat.le_refl _)
    rw [List.take_length] at this
    show ms.length = _
    rw [h4, List.nil_append, this]
  · intro e x hx
    obtain ⟨hlt, _⟩ := List.getElem?_eq_some_iff.mp hx
    have h := h5 e x hx
    simp only [List.length_nil, Nat.zero_add] at h
    refine ⟨h.1, fun h0 => ⟨?_, ?_⟩⟩
    · rw [h.2 h0, hoff e (by omega)]
    · intro j d id hj hid
      have hjl : j < (C e).length := (List.getElem?_eq_some_iff.mp hj).choose
      have hg := flatMap_get (fun y : Int × Nat => segOf ch (idxOf sp pos) y.2 y.1) (O.matlist.zipIdx 0) e (x, e) j
        (by rw [List.getElem?_zipIdx, hx]; simp) (by
          show j < (segOf ch (idxOf sp pos) e x).length
          rw [hseg e x hx, hch]; simpa using hjl)
      have ho : (((O.matlist.zipIdx 0).take e).map fun y => (segOf ch (idxOf sp pos) y.2 y.1).length).sum = off C e := by
        rw [← hoff e (by omega), flatMap_len]
        congr 2
        apply List.ext_getElem?
        intro i
        by_cases hi : i < e
        · rw [List.getElem?_take_of_lt hi, List.getElem?_zipIdx, List.getElem?_zipIdx, List.getElem?_take_of_lt hi]
        · rw [List.getElem?_eq_none (by simp; omega), List.getElem?_eq_none (by simp; omega)]
      rw [ho] at hg
      show ms[off C e + j]? = _
      rw [h4, List.nil_append, hg]
      show (segOf ch (idxOf sp pos) e x)[j]? = _
      rw [hseg e x hx, hch]
      simp only [List.map_map, List.getElem?_map, hj, Option.map_some, Function.comp_apply, hid, Option.getD_some]

/-- C69: the mass fractions read from the arrays are those of the species set, for the materials in
    each zone and for no others; and if the matset's lists are packed, as `to_silo` makes them,
    "mix_spec" may be read beside "mix_mat". -/
theorem C69_species [Inhabited γ] (sp : Specs γ) (O : Silo α β) (hO : SiloWF O) (hsp : SpecWF sp O.matmap O.matlist.length) :
    ∃ F, ∀ fuel > F, ∃ R, specToSilo true sp O fuel = some (.ok R) ∧ R.speclist.length = O.matlist.length ∧
      (∀ e n s v, SiloSpec (SpecStart O R) O R e n s v ↔ SiloIn O e n ∧ SpecHas sp e n s v) ∧
      (Packed O → R.mixSpec.length = O.mixMat.length ∧ (∀ (e : Nat) (x : Int), O.matlist[e]? = some x → x < 0 → R.speclist[e]? = some x) ∧
        ∀ e n s v, SiloSpec (SpecStartBeside O R) O R e n s v ↔ SiloIn O e n ∧ SpecHas sp e n s v) := by
  obtain ⟨C, hC⟩ := exists_chains hO
  refine ⟨off C O.matlist.length, fun fuel hf => ?_⟩
  obtain ⟨pos, R, h1, hpos, hnm, hsn, hmf, hlen, hml, hz⟩ := run sp O C hC hO hsp fuel hf
  have hidx : ∀ (e i : Nat) n id, O.matmap[i]? = some (n, id) →
      idxOf sp pos e id = ((e * (sp.map (·.2.length)).sum + ((sp.map (·.2.length)).take i).sum : Nat) : Int) + 1 := by
    intro e i n id hi
    unfold idxOf specIndex
    rw [hpos i n id hi, Option.getD_some]
    omega
  have hknown : ∀ id, id ∈ O.matmap.map (·.2) → ∃ (i : Nat) (n : Str), O.matmap[i]? = some (n, id) := by
    intro id hid
    obtain ⟨⟨n, id'⟩, hx, rfl⟩ := List.mem_map.mp hid
    obtain ⟨i, hi⟩ := List.getElem?_of_mem hx
    exact ⟨i, n, hi⟩
  -- a way of reading that finds the computed positions
  have main : ∀ start : Nat → Int → Int → Prop,
      (∀ e id p, start e id p ↔ ((O.matlist[e]? = some id ∧ 0 ≤ id) ∨
        ∃ x l d, O.matlist[e]? = some x ∧ x < 0 ∧ Chain O.mixNext (-x) l ∧ d ∈ l ∧ O.mixMat[d]? = some id) ∧ p = idxOf sp pos e id) →
      ∀ e n s v, SiloSpec start O R e n s v ↔ SiloIn O e n ∧ SpecHas sp e n s v := by
    intro start hstart e n s v
    have hN : ∀ id, ((O.matlist[e]? = some id ∧ 0 ≤ id) ∨
        ∃ x l d, O.matlist[e]? = some x ∧ x < 0 ∧ Chain O.mixNext (-x) l ∧ d ∈ l ∧ O.mixMat[d]? = some id) → e < O.matlist.length := by
      rintro id (⟨h, _⟩ | ⟨x, _, _, h, _⟩) <;> exact (List.getElem?_eq_some_iff.mp h).choose
    constructor
    · rintro ⟨i, id, q, k, cnt, hi, hst, hcnt, hk, hs, hv⟩
      obtain ⟨hin, hq⟩ := (hstart e id _).mp hst
      have he := hN id hin
      rw [hidx e i n id hi] at hq
      have hq : q = e * (sp.map (·.2.length)).sum + ((sp.map (·.2.length)).take i).sum := by omega
      have hil : i < sp.length := by
        have := congrArg List.length hsp.names
        simp only [List.length_map] at this
        rw [this]; exact (List.getElem?_eq_some_iff.mp hi).choose
      have hspi := List.getElem?_eq_getElem hil
      have hname : (sp[i]'hil).1 = n := by
        have := congrArg (·[i]?) hsp.names
        simp only [List.getElem?_map, hspi, hi, Option.map_some, Option.some.injEq] at this
        exact this
      have hkl : k < (sp[i]'hil).2.length := by
        rw [hnm, List.getElem?_map, hspi] at hcnt
        simp only [Option.map_some, Option.some.injEq] at hcnt
        omega
      rw [hsn, hnm, name_get sp i k _ _ hspi hkl] at hs
      rw [hmf, hq, mf_get sp _ e i k _ _ he hspi hkl] at hv
      simp only [Option.some.injEq] at hs hv
      refine ⟨⟨id, List.mem_of_getElem? hi, hin⟩, (sp[i]'hil).2, ((sp[i]'hil).2[k]'hkl).2, ?_, ?_, ?_⟩
      · rw [← hname]; exact List.mem_of_getElem? hspi
      · rw [← hs]; exact List.mem_of_getElem? (List.getElem?_eq_getElem hkl)
      · have hl := hsp.len (sp[i]'hil).1 (sp[i]'hil).2 ((sp[i]'hil).2[k]'hkl).1 ((sp[i]'hil).2[k]'hkl).2 (List.mem_of_getElem? hspi)
          (List.mem_of_getElem? (List.getElem?_eq_getElem hkl))
        have he' : e < ((sp[i]'hil).2[k]'hkl).2.length := by omega
        rw [← hv, List.getElem?_eq_getElem he']
        simp [List.getD, List.getElem?_eq_getElem he']
    · rintro ⟨⟨id, hid, hin⟩, ss, col, hss, hcol, hv⟩
      have he := hN id hin
      obtain ⟨i, hi⟩ := List.getElem?_of_mem hid
      obtain ⟨i', hi'⟩ := List.getElem?_of_mem hss
      have heq : i' = i := by
        have hn := hO.map.names
        refine (List.getElem?_inj (l := O.matmap.map (·.1)) ?_ hn).mp ?_
        · rw [← hsp.names]; simpa using (List.getElem?_eq_some_iff.mp hi').choose
        · rw [← hsp.names, List.getElem?_map, hi', hsp.names, List.getElem?_map, hi]; rfl
      subst heq
      obtain ⟨k, hk⟩ := List.getElem?_of_mem hcol
      obtain ⟨hkl, hkv⟩ := List.getElem?_eq_some_iff.mp hk
      refine ⟨i', id, _, k, ss.length, hi, (hstart e id _).mpr ⟨hin, (hidx e i' n id hi).symm⟩, ?_, hkl, ?_, ?_⟩
      · rw [hnm, List.getElem?_map, hi']; rfl
      · rw [hsn, hnm, name_get sp i' k n ss hi' hkl, hkv]
      · rw [hmf, mf_get sp _ e i' k n ss he hi' hkl, hkv]
        simp [List.getD, hv]
  refine ⟨R, h1, hlen, main _ ?_, ?_⟩
  · intro e id p
    constructor
    · rintro (⟨a, b, c⟩ | ⟨x, l, j, d, y, hx, h0, hc, hj, hd, hy, hp⟩)
      · rw [(hz e id a).1 b] at c
        simp only [Option.some.injEq] at c
        exact ⟨.inl ⟨a, b⟩, c.symm⟩
      · have := chain_unique hc ((hC e x hx).2 h0)
        subst this
        obtain ⟨g1, g2⟩ := (hz e x hx).2 h0
        rw [g1] at hy
        simp only [Option.some.injEq] at hy
        have : y = off C e := by omega
        subst this
        rw [g2 j d id hj hd] at hp
        simp only [Option.some.injEq] at hp
        exact ⟨.inr ⟨x, C e, d, hx, h0, hc, List.mem_of_getElem? hj, hd⟩, hp.symm⟩
    · rintro ⟨⟨a, b⟩ | ⟨x, l, d, hx, h0, hc, hdl, hd⟩, rfl⟩
      · exact .inl ⟨a, b, (hz e id a).1 b⟩
      · have := chain_unique hc ((hC e x hx).2 h0)
        subst this
        obtain ⟨g1, g2⟩ := (hz e x hx).2 h0
        obtain ⟨j, hj⟩ := List.getElem?_of_mem hdl
        exact .inr ⟨x, C e, j, d, off C e, hx, h0, hc, hj, hd, by rw [g1]; congr 1; omega, g2 j d id hj hd⟩
  · rintro ⟨C', hC', hflat⟩
    have hoff' : ∀ e, e ≤ O.matlist.length → off C e = off C' e := by
      intro e he
      unfold off
      congr 1
      apply List.map_congr_left
      intro i hi
      have hi := List.mem_range.mp hi
      have hx := List.getElem?_eq_getElem (l := O.matlist) (i := i) (by omega)
      by_cases h0 : 0 ≤ O.matlist[i]'(by omega)
      · rw [(hC i _ hx).1 h0, (hC' i _ hx).1 h0]
      · rw [chain_unique ((hC i _ hx).2 (by omega)) ((hC' i _ hx).2 (by omega))]
    have htot : off C O.matlist.length = O.mixMat.length := by
      rw [hoff' _ (Nat.le_refl _)]
      have := congrArg List.length hflat
      rw [flatMap_len, List.length_range] at this
      exact this
    have hplace : ∀ (e : Nat) (x : Int), O.matlist[e]? = some x → x < 0 → ∀ j d, (C e)[j]? = some d → d = off C e + j := by
      intro e x hx h0 j d hj
      have he : e < O.matlist.length := (List.getElem?_eq_some_iff.mp hx).choose
      have hce : C e = C' e := chain_unique ((hC e x hx).2 h0) ((hC' e x hx).2 h0)
      rw [hce] at hj
      have := flatMap_get C' (List.range O.matlist.length) e e j (List.getElem?_range he) (List.getElem?_eq_some_iff.mp hj).choose
      rw [hflat, take_range _ _ (by omega), hj] at this
      have hlt := (List.getElem?_eq_some_iff.mp this).choose
      rw [List.length_range] at hlt
      rw [List.getElem?_range hlt] at this
      simp only [Option.some.injEq] at this
      rw [hoff' e (by omega)]
      exact this.symm
    refine ⟨by rw [hml, htot], ?_, main _ ?_⟩
    · intro e x hx h0
      obtain ⟨g1, _⟩ := (hz e x hx).2 h0
      rw [g1]
      have hc := (hC e x hx).2 h0
      generalize hp : -x = p at hc
      cases hl : C e with
      | nil =>
        rw [hl] at hc
        cases hc
        omega
      | cons d l =>
        have := hplace e x hx h0 0 d (by rw [hl]; rfl)
        rw [hl] at hc
        cases hc
        congr 1; omega
    · intro e id p
      constructor
      · rintro (⟨a, b, c⟩ | ⟨x, l, d, hx, h0, hc, hdl, hd, hp⟩)
        · rw [(hz e id a).1 b] at c
          simp only [Option.some.injEq] at c
          exact ⟨.inl ⟨a, b⟩, c.symm⟩
        · have := chain_unique hc ((hC e x hx).2 h0)
          subst this
          obtain ⟨g1, g2⟩ := (hz e x hx).2 h0
          obtain ⟨j, hj⟩ := List.getElem?_of_mem hdl
          rw [hplace e x hx h0 j d hj, g2 j d id hj hd] at hp
          simp only [Option.some.injEq] at hp
          exact ⟨.inr ⟨x, C e, d, hx, h0, hc, hdl, hd⟩, hp.symm⟩
      · rintro ⟨⟨a, b⟩ | ⟨x, l, d, hx, h0, hc, hdl, hd⟩, rfl⟩
        · exact .inl ⟨a, b, (hz e id a).1 b⟩
        · have := chain_unique hc ((hC e x hx).2 h0)
          subst this
          obtain ⟨g1, g2⟩ := (hz e x hx).2 h0
          obtain ⟨j, hj⟩ := List.getElem?_of_mem hdl
          exact .inr ⟨x, C e, d, hx, h0, hc, hdl, hd, by rw [hplace e x hx h0 j d hj]; exact g2 j d id hj hd⟩

/-- a silo matset that decodes to `H` can be read, and its zones contain the materials of `H` -/
private theorem decodes_wf {O : Silo α β} {N : Nat} {big : α → Bool} {H : Nat → Str → α → Prop} (D : Decodes O N big H) (hm : MapWF O.matmap)
    (hz : NoEmpty N big H) : SiloWF O ∧ ∀ e n, e < N → (SiloIn O e n ↔ ∃ v, H e n v ∧ big v = true) := by
  have hN : ∀ (e : Nat) (x : Int), O.matlist[e]? = some x → e < N := by
    intro e x h
    rw [← D.len]; exact (List.getElem?_eq_some_iff.mp h).choose
  refine ⟨⟨hm, ?_, ?_⟩, ?_⟩
  · intro e x hx h0
    have he := hN e x hx
    obtain ⟨n, v, hv, hb⟩ := hz e he
    by_cases ho : Other big H e n
    · obtain ⟨x', _, _, _, hx', h0', _⟩ := (D.mix e n v he).mpr ⟨⟨hv, hb⟩, ho⟩
      rw [hx] at hx'
      simp only [Option.some.injEq] at hx'
      omega
    · obtain ⟨x', hx', _, hmem⟩ := (D.clean e n he).mpr ⟨⟨v, hv, hb⟩, fun n' v' h1 h2 => by
        apply Classical.byContradiction
        intro hne
        exact ho ⟨n', v', hne, h1, h2⟩⟩
      rw [hx] at hx'
      simp only [Option.some.injEq] at hx'
      subst hx'
      exact List.mem_map.mpr ⟨_, hmem, rfl⟩
  · intro e x hx h0
    obtain ⟨l, a, _, b⟩ := D.chain e x hx h0
    exact ⟨l, a, b⟩
  · intro e n he
    constructor
    · rintro ⟨id, hid, ⟨hx, h0⟩ | ⟨x, l, d, hx, h0, hc, hd, hmat⟩⟩
      · exact ((D.clean e n he).mp ⟨id, hx, h0, hid⟩).1
      · have hlt := (List.getElem?_eq_some_iff.mp hmat).choose
        have hv := List.getElem?_eq_getElem (l := O.mixVf) (i := d) (by rw [D.lens.2]; exact hlt)
        exact ⟨_, ((D.mix e n _ he).mp ⟨x, l, d, id, hx, h0, hc, hd, hmat, hid, hv⟩).1⟩
    · rintro ⟨v, hv, hb⟩
      by_cases ho : Other big H e n
      · obtain ⟨x, l, d, id, hx, h0, hc, hd, hmat, hid, _⟩ := (D.mix e n v he).mpr ⟨⟨hv, hb⟩, ho⟩
        exact ⟨id, hid, .inr ⟨x, l, d, hx, h0, hc, hd, hmat⟩⟩
      · obtain ⟨x, hx, h0, hmem⟩ := (D.clean e n he).mpr ⟨⟨v, hv, hb⟩, fun n' v' h1 h2 => by
          apply Classical.byContradiction
          intro hne
          exact ho ⟨n', v', hne, h1, h2⟩⟩
        exact ⟨x, hmem, .inl ⟨hx, h0⟩⟩

/-- C69 for the arrays that `matset::to_silo` makes of a mixture `H` (C68): the two conversions
    together give, for every element, the mass fractions of the materials it contains. -/
theorem C69_of_mixture [Inhabited γ] (sp : Specs γ) (O : Silo α β) (N : Nat) (big : α → Bool) (H : Nat → Str → α → Prop) (D : Decodes O N big H)
    (hm : MapWF O.matmap) (hz : NoEmpty N big H) (hsp : SpecWF sp O.matmap N) :
    ∃ F, ∀ fuel > F, ∃ R, specToSilo true sp O fuel = some (.ok R) ∧ R.mixSpec.length = O.mixMat.length ∧
      ∀ e n s v, e < N → ((SiloSpec (SpecStart O R) O R e n s v ↔ (∃ f, H e n f ∧ big f = true) ∧ SpecHas sp e n s v) ∧
        (SiloSpec (SpecStartBeside O R) O R e n s v ↔ (∃ f, H e n f ∧ big f = true) ∧ SpecHas sp e n s v)) := by
  obtain ⟨hO, hin⟩ := decodes_wf D hm hz
  obtain ⟨F, hF⟩ := C69_species sp O hO (by rw [D.len]; exact hsp)
  refine ⟨F, fun fuel hf => ?_⟩
  obtain ⟨R, h1, _, h3, h4⟩ := hF fuel hf
  obtain ⟨h5, _, h6⟩ := h4 D.packed
  exact ⟨R, h1, h5, fun e n s v he => ⟨by rw [h3, hin e n he], by rw [h6, hin e n he]⟩⟩

/-! ### the hypotheses can be met -/

private def mA : Str := chars! "a"
private def mB : Str := chars! "b"
private def s1 : Str := chars! "s1"
private def s2 : Str := chars! "s2"
private def s3 : Str := chars! "s3"

/-- a mixed zone and a clean one; `a` has two species, `b` one -/
private def exSilo : Silo Nat Unit := ⟨[(mA, 7), (mB, 4)], [-1, 4], [2, 0], [4, 7], [3, 5], [(), ()]⟩
private def exSpec : Specs Nat := [(mA, [(s1, [10, 11]), (s2, [20, 21])]), (mB, [(s3, [30, 31])])]

example : SiloWF exSilo ∧ Packed exSilo ∧ SpecWF exSpec exSilo.matmap exSilo.matlist.length ∧
    specToSilo true exSpec exSilo 10 = some (.ok ⟨[2, 1], [s1, s2, s3], [10, 20, 30, 11, 21, 31], [-1, 6], [3, 1]⟩) := by
  have hc : Chain exSilo.mixNext (-(-1)) [0, 1] := .cons 0 2 [1] rfl (.cons 1 0 [] rfl .nil)
  have hcase : ∀ (e : Nat) (x : Int), exSilo.matlist[e]? = some x → (e = 0 ∧ x = -1) ∨ (e = 1 ∧ x = 4) := by
    intro e x h
    match e, h with
    | 0, h => exact .inl ⟨rfl, by simpa [exSilo] using h.symm⟩
    | 1, h => exact .inr ⟨rfl, by simpa [exSilo] using h.symm⟩
    | e + 2, h => simp [exSilo] at h
  refine ⟨⟨⟨by decide +kernel, by decide +kernel, by decide +kernel⟩, ?_, ?_⟩, ⟨fun e => if e = 0 then [0, 1] else [], ?_, by decide +kernel⟩,
    ⟨by decide +kernel, ?_⟩, by decide +kernel⟩
  · intro e x h h0
    rcases hcase e x h with ⟨_, rfl⟩ | ⟨_, rfl⟩
    · omega
    · decide +kernel
  · intro e x h h0
    rcases hcase e x h with ⟨_, rfl⟩ | ⟨_, rfl⟩
    · refine ⟨[0, 1], hc, ?_⟩
      intro d hd
      simp only [List.mem_cons, List.not_mem_nil, or_false] at hd
      rcases hd with rfl | rfl
      · exact ⟨4, rfl, by decide +kernel⟩
      · exact ⟨7, rfl, by decide +kernel⟩
    · omega
  · intro e x h
    rcases hcase e x h with ⟨rfl, rfl⟩ | ⟨rfl, rfl⟩
    · exact ⟨fun _ => by omega, fun _ => hc⟩
    · exact ⟨fun _ => rfl, fun _ => by omega⟩
  · intro n ss s col h1 h2
    have : ∀ m ∈ exSpec, ∀ t ∈ m.2, 2 ≤ t.2.length := by decide +kernel
    exact this _ h1 _ h2

/-! ### where the claim fails -/

/-- C69 is false when "mix_spec" is read beside "mix_mat" and the lists are not packed (a matset
    given in silo form): the first entry of zone 0 is at position 1 of "mix_mat", that of its
    species at position 0 of "mix_spec". -/
theorem C69_unpacked_not_beside :
    specToSilo true [(mA, [(s1, [10])]), (mB, [(s2, [20])])] (⟨[(mA, 0), (mB, 1)], [-2], [0, 1], [1, 0], [3, 5], [(), ()]⟩ : Silo Nat Unit) 10 =
      some (.ok ⟨[1, 1], [s1, s2], [10, 20], [-1], [1, 2]⟩) := by decide +kernel

/-- C69 is false when the material map is not made of 32 bit integers, as when the matset's
    integers are 64 bit wide and the map is implied: the conversion fails. -/
theorem C69_wide_map_is_error (sp : Specs γ) (O : Silo α β) (fuel : Nat) (h : O.matmap ≠ []) : specToSilo false sp O fuel = some .error := by
  unfold specToSilo
  by_cases hl : O.matmap.length = sp.length
  · rw [if_pos hl]
    match hm : O.matmap, h with
    | (n', id) :: mm, _ =>
      match sp with
      | [] => rw [hm] at hl; simp at hl
      | (n, ss) :: sp =>
        have : matPos false ((n, ss) :: sp) ((n', id) :: mm) 0 [] = .error := by
          unfold matPos
          by_cases hn : n = n'
          · rw [if_pos hn]; rfl
          · rw [if_neg hn]
        rw [this]
  · rw [if_neg hl]

/-- C69 is false for materials in another order, or missing from either side: the conversion fails. -/
theorem C69_order_is_error :
    specToSilo true [(mB, [(s2, [20])]), (mA, [(s1, [10])])] (⟨[(mA, 0), (mB, 1)], [0], [], [], [], []⟩ : Silo Nat Unit) 10 = some .error ∧
    specToSilo true [(mA, [(s1, [10])])] (⟨[(mA, 0), (mB, 1)], [0], [], [], [], []⟩ : Silo Nat Unit) 10 = some .error := by decide +kernel

/-- C69 is false for species without a value for every element: the missing ones are read past the
    end of the array, even for elements which do not contain the material. -/
theorem C69_short_species_is_ub :
    specToSilo true [(mA, [(s1, [10, 11])]), (mB, [(s2, [20])])] (⟨[(mA, 0), (mB, 1)], [1, 0], [], [], [], []⟩ : Silo Nat Unit) 10 = some .ub := by decide +kernel

end Conduit.Matset
