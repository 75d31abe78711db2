import Verif.Lemmas.ExtractBox2
import Verif.Props.Extract
/-
The extraction of a box.
-/
namespace Conduit.Part
open Conduit.Mesh
variable {F : Type}

theorem logicalAxes_logical (n : Nat) (h : n < 3) : logicalAxes.getD n [] = logical n := by
  rcases (by omega : n = 0 ∨ n = 1 ∨ n = 2) with rfl | rfl | rfl <;> rfl

theorem movedOrigin_ok (A : Arith F) (topo : BNode F) (start : List Nat) (hO : OriginGood A topo) :
    ∀ ns : List Nat, (∀ n ∈ ns, n < 3) → ∃ org, movedOrigin A topo (i3 start) ns = .ok org ∧
      (org.map (·.1)).Sublist (ns.map logical) ∧
      ∀ n ∈ ns, ∀ k, OriginAt A topo (logical n) k → (logical n, BNode.ints int64 [int64.cast (k + (start.getD n 0 : Nat))]) ∈ org
  | [], _ => ⟨[], rfl, .slnil, fun n h => by cases h⟩
  | n :: ns, h => by
    obtain ⟨org, e1, e2, e3⟩ := movedOrigin_ok A topo start hO ns (fun m hm => h m (by simp [hm]))
    have hn := h n (by simp)
    unfold movedOrigin
    simp only [e1, Res.bind_ok, logicalAxes_logical n hn]
    by_cases hex : ∃ v, (do (← (← topo.get (chars! "elements")).get (chars! "origin")).get (logical n)) = Res.ok v
    · obtain ⟨v, hv⟩ := hex
      have hv' := hv
      simp only [Res.bind_eq_ok] at hv'
      obtain ⟨e, q1, oo, q2, q3⟩ := hv'
      obtain ⟨k, hk⟩ := hO e oo _ v q1 q2 q3
      rw [hv]
      simp only [hk, Res.bind_ok, i3_at _ _ hn]
      refine ⟨_, rfl, List.Sublist.cons_cons _ e2, ?_⟩
      intro m hm j hj
      rcases List.mem_cons.1 hm with rfl | hm
      · obtain ⟨e', o', v', r1, r2, r3, r4⟩ := hj
        rw [q1] at r1; cases r1
        rw [q2] at r2; cases r2
        rw [q3] at r3; cases r3
        rw [hk] at r4; cases r4
        exact List.mem_cons_self
      · exact List.mem_cons_of_mem _ (e3 m hm j hj)
    · have hno : ∀ j, ¬ OriginAt A topo (logical n) j := by
        rintro j ⟨e, oo, v, q1, q2, q3, _⟩
        exact hex ⟨v, by rw [q1, Res.bind_ok, q2, Res.bind_ok, q3]⟩
      refine ⟨org, ?_, List.Sublist.cons _ e2, ?_⟩
      · cases hv : (do (← (← topo.get (chars! "elements")).get (chars! "origin")).get (logical n)) with
        | ok v => exact absurd ⟨v, hv⟩ hex
        | error => rfl
        | ub => rfl
      · intro m hm j hj
        rcases List.mem_cons.1 hm with rfl | hm
        · exact absurd hj (hno j)
        · exact e3 m hm j hj

theorem boxTopo_ok (A : Arith F) (topo : BNode F) (ty csname : Str) (start : List Nat) (hO : OriginGood A topo) :
    ∃ topo', boxTopo A topo ty csname (i3 start) = .ok topo' ∧ topo'.get (chars! "type") = .ok (.str ty) ∧
      topo'.get (chars! "coordset") = .ok (.str csname) ∧ OriginMoved A topo topo' start := by
  obtain ⟨org, e1, e2, e3⟩ := movedOrigin_ok A topo start hO [0, 1, 2] (by decide)
  have hnd : (org.map (·.1)).Nodup := e2.nodup (by decide)
  unfold boxTopo
  simp only [e1, Res.bind_ok]
  cases org with
  | nil =>
    refine ⟨_, rfl, rfl, rfl, ?_⟩
    intro n k hn hk
    have := e3 n (by simp; omega) k hk
    cases this
  | cons a l =>
    refine ⟨_, rfl, rfl, rfl, ?_⟩
    intro n k hn hk hc
    refine ⟨.obj [(chars! "origin", .obj (a :: l))], .obj (a :: l), _, rfl, rfl,
      get_named (a :: l) hnd _ (e3 n (by simp; omega) k hk), ?_⟩
    rw [hc]
    show Res.ok (int64.cast _) = _
    rw [hc]

/-- The structured topology of a box. -/
theorem boxStructured_ok (A : Arith F) (topo : BNode F) (csname : Str) (ed : List Nat) (e d : BNode F)
    (start stop : List Nat) (hs : Structured A topo ed) (he : topo.get (chars! "elements") = .ok e) (hdd : e.get (chars! "dims") = .ok d)
    (hk : d.kids.map (·.1) = (List.range ed.length).map logical) (hl : ed.length = 2 ∨ ed.length = 3) (hb : BoxIn ed start stop) :
    ∃ topo', boxStructured topo csname (i3 start) (i3 stop) = .ok topo' ∧
      (∀ cset names, ExplicitAxes cset names → names.length = ed.length → Grid A topo' cset (boxLens start stop)) ∧
      topo'.get (chars! "type") = .ok (.str (chars! "structured")) ∧ topo'.get (chars! "coordset") = .ok (.str csname) := by
  obtain ⟨e', d', g1, g2, g3⟩ := hs
  rw [he] at g1; cases g1
  rw [hdd] at g2; cases g2
  have hlen := boxLens_length hb
  have hsmall : ∀ i n, ed[i]? = some n → stop.getD i 0 - start.getD i 0 + 1 < 2147483648 := by
    intro i n hi
    obtain ⟨_, _, x3, x4, _⟩ := boxLens_get hb i n hi
    obtain ⟨_, _, _, _, h4⟩ := g3 i n hi
    omega
  rcases hl with hl | hl
  · have hnk : (do (← (← topo.get (chars! "elements")).get (chars! "dims")).get (chars! "k")) = Res.error := by
      rw [he, Res.bind_ok, hdd, Res.bind_ok]
      apply get_error_of_not
      rw [hl] at hk
      have : ∀ k ∈ d.kids, k.1 ≠ chars! "k" := by
        intro k hkm
        have : k.1 ∈ (List.range 2).map logical := by rw [← hk]; exact List.mem_map_of_mem hkm
        intro h
        rw [h] at this
        exact absurd this (by decide)
      unfold BNode.hasChild
      rw [List.any_eq_false]
      intro k hkm
      simpa using this k hkm
    unfold boxStructured
    rw [hnk]
    refine ⟨_, rfl, fun cset names hx hn => ?_, rfl, rfl⟩
    refine .structured _ names (.obj [(chars! "dims", .obj [(chars! "i", .ints int64 [(i3 stop).i - (i3 start).i + 1]),
      (chars! "j", .ints int64 [(i3 stop).j - (i3 start).j + 1])])]) (.obj [(chars! "i", .ints int64 [(i3 stop).i - (i3 start).i + 1]),
      (chars! "j", .ints int64 [(i3 stop).j - (i3 start).j + 1])]) rfl hx (by rw [hn, hlen]) ?_ rfl rfl (by rw [hlen, hl]; rfl)
    refine ⟨_, _, rfl, rfl, ?_⟩
    intro i k hi
    have hlt := (List.getElem?_eq_some_iff.1 hi).1
    rw [hlen] at hlt
    have hi2 := List.getElem?_eq_getElem hlt
    obtain ⟨_, _, x3, x4, x5⟩ := boxLens_get hb i _ hi2
    rw [x5] at hi
    cases hi
    have hsm := hsmall i _ hi2
    refine ⟨.ints int64 [((stop.getD i 0 - start.getD i 0 + 1 : Nat) : Int)], by omega, ?_, ?_, hsm⟩
    · have ee : ((stop.getD i 0 - start.getD i 0 + 1 : Nat) : Int) = (stop.getD i 0 : Nat) - (start.getD i 0 : Nat) + 1 := by omega
      rw [ee]
      rcases (by omega : i = 0 ∨ i = 1) with rfl | rfl <;> rfl
    · show Res.ok (int64.cast _) = _
      rw [idx_small hsm]
  · have hnk : ∃ v, (do (← (← topo.get (chars! "elements")).get (chars! "dims")).get (chars! "k")) = Res.ok v := by
      rw [he, Res.bind_ok, hdd, Res.bind_ok]
      obtain ⟨c, _, h2, _⟩ := g3 2 ed[2] (List.getElem?_eq_getElem (by omega))
      exact ⟨c, h2⟩
    obtain ⟨v, hnk⟩ := hnk
    unfold boxStructured
    rw [hnk]
    refine ⟨_, rfl, fun cset names hx hn => ?_, rfl, rfl⟩
    refine .structured _ names (.obj [(chars! "dims", .obj [(chars! "i", .ints int64 [(i3 stop).i - (i3 start).i + 1]),
      (chars! "j", .ints int64 [(i3 stop).j - (i3 start).j + 1]), (chars! "k", .ints int64 [(i3 stop).k - (i3 start).k + 1])])])
      (.obj [(chars! "i", .ints int64 [(i3 stop).i - (i3 start).i + 1]),
      (chars! "j", .ints int64 [(i3 stop).j - (i3 start).j + 1]), (chars! "k", .ints int64 [(i3 stop).k - (i3 start).k + 1])])
      rfl hx (by rw [hn, hlen]) ?_ rfl rfl (by rw [hlen, hl]; rfl)
    refine ⟨_, _, rfl, rfl, ?_⟩
    intro i k hi
    have hlt := (List.getElem?_eq_some_iff.1 hi).1
    rw [hlen] at hlt
    have hi2 := List.getElem?_eq_getElem hlt
    obtain ⟨_, _, x3, x4, x5⟩ := boxLens_get hb i _ hi2
    rw [x5] at hi
    cases hi
    have hsm := hsmall i _ hi2
    refine ⟨.ints int64 [((stop.getD i 0 - start.getD i 0 + 1 : Nat) : Int)], by omega, ?_, ?_, hsm⟩
    · have ee : ((stop.getD i 0 - start.getD i 0 + 1 : Nat) : Int) = (stop.getD i 0 : Nat) - (start.getD i 0 : Nat) + 1 := by omega
      rw [ee]
      rcases (by omega : i = 0 ∨ i = 1 ∨ i = 2) with rfl | rfl | rfl <;> rfl
    · show Res.ok (int64.cast _) = _
      rw [idx_small hsm]

theorem domain_coordset {s : Sel} {mesh topo cset : BNode F} {tname csname : Str} (hd : Domain s mesh tname topo csname cset) :
    coordsetOf mesh topo = .ok (some cset) := by
  obtain ⟨hsel, htn, hcn, csets, hcs, hcset⟩ := hd
  unfold coordsetOf
  rw [if_pos ((hasChild_iff_get _ _).2 ⟨_, hcn⟩), hcn]
  simp only [Res.bind_ok, BNode.asString]
  rw [if_pos ((hasChild_iff_get _ _).2 ⟨_, hcs⟩), hcs]
  simp only [Res.bind_ok]
  rw [if_pos ((hasChild_iff_get _ _).2 ⟨_, hcset⟩), hcset]
  rfl

/-- The whole, given the coordset and the topology. -/
theorem box_extract (A : Arith F) (o : Opts) (s : Sel) (mesh topo cset fields : BNode F) (tname csname : Str) (ed start stop : List Nat)
    (hd : Domain s mesh tname topo csname cset) (hk : s.kind = .logical (i3 start) (i3 stop)) (hl : ed.length = 2 ∨ ed.length = 3)
    (hg : GridRead A mesh topo cset ed) (hb : BoxIn ed start stop) (hf : mesh.get (chars! "fields") = .ok fields)
    (hgf : GoodFields o tname (count ed) (count (ed.map (· + 1))) fields.kids) (tty cty : Str) (topo' : BNode F)
    (htt : topo.get (chars! "type") = .ok (.str tty)) (hct : cset.get (chars! "type") = .ok (.str cty))
    (htopo : (if tty = chars! "uniform" ∨ tty = chars! "rectilinear" then do .ok (some (← boxTopo A topo tty csname (i3 start)))
        else if tty = chars! "structured" then do .ok (some (← boxStructured topo csname (i3 start) (i3 stop)))
        else .ok none) = Res.ok (some topo'))
    (P : List Nat → BNode F → Prop)
    (hcs : ∀ pts, (∀ p ∈ pts, p < count (ed.map (· + 1))) → ∃ cset', (if cty = chars! "uniform" then uniformCoords A cset (i3 start) (i3 stop)
        else if cty = chars! "rectilinear" then rectilinearCoords cset (i3 start) (i3 stop)
        else explicitCoords A cset (ints pts)) = .ok cset' ∧ P pts cset') :
    ∃ mesh' cset' ids pts, extract A o s mesh = .ok (some (mesh', pts.map fun p : Nat => (p : Int))) ∧
      BoxOf ed start (boxLens start stop) ids ∧ BoxOf (ed.map (· + 1)) start ((boxLens start stop).map (· + 1)) pts ∧
      elementIds A s mesh = .ok (ids.map fun i : Nat => (i : Int)) ∧
      LeafAt mesh' (chars! "topologies") tname topo' ∧ LeafAt mesh' (chars! "coordsets") csname cset' ∧ P pts cset' ∧
      FieldsTaken o s.domain tname pts ids fields.kids (mesh'.getOrEmpty (chars! "fields")) ∧ StateKept mesh mesh' (destDomain s) := by
  obtain ⟨ids, pts, b1, b2, b3, b4, b5, b6, b7, b8⟩ := box_ids A mesh topo cset ed start stop hl hg hb
  obtain ⟨cset', c1, c2⟩ := hcs pts b6
  obtain ⟨hsel, htn, hcn, csets, hcss, hcset⟩ := hd
  obtain ⟨out, f1, f2⟩ := copyFields_ok o s.domain tname pts ids mesh fields hf (count ed) (count (ed.map (· + 1))) hgf b5 b6 b7 b8 htn
  obtain ⟨st, s1, s2⟩ := state_kept mesh (destDomain s)
  have hids : elementIds A s mesh = .ok (ints ids) := by
    unfold elementIds
    simp only [hk, hsel, Res.bind_ok, hg.logical, caught]
    rw [b1 _ hg.logical]
  have hfl : ∀ k ∈ fieldsKid out, k.1 = chars! "fields" := by
    intro k hkm
    cases out with
    | empty => cases hkm
    | _ => exact congrArg (·.1) (List.mem_singleton.1 hkm)
  have hext : extract A o s mesh = .ok (some (.obj ([(chars! "coordsets", .obj [(csname, cset')]),
      (chars! "topologies", .obj [(tname, topo')])] ++ st ++ fieldsKid out), ints pts)) := by
    unfold extract
    simp only [hsel, Res.bind_ok, hcss, hcn, BNode.asString, hcset, s1, hids, htt, hk, b2, hct, c1, htopo, f1]
    rfl
  obtain ⟨k1, k2⟩ := s2 (chars! "coordsets", .obj [(csname, cset')]) (chars! "topologies", .obj [(tname, topo')]) (fieldsKid out) rfl rfl hfl
  refine ⟨_, cset', ids, pts, hext, b3, b4, hids, ⟨.obj [(tname, topo')], ?_, ?_⟩, ⟨.obj [(csname, cset')], ?_, ?_⟩, c2, ?_, k1⟩
  · rw [k2 _ (by decide)]; rfl
  · simp [BNode.get, BNode.kids]
  · rw [k2 _ (by decide)]; rfl
  · simp [BNode.get, BNode.kids]
  · have : (BNode.obj ([(chars! "coordsets", .obj [(csname, cset')]), (chars! "topologies", .obj [(tname, topo')])] ++ st ++ fieldsKid out)).getOrEmpty
        (chars! "fields") = out := by
      unfold BNode.getOrEmpty
      rw [k2 _ (by decide)]
      cases out <;> rfl
    rw [this]; exact f2

end Conduit.Part
