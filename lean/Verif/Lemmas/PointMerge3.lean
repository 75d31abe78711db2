import Verif.Lemmas.PointMerge2
import Verif.Lemmas.MeshReorder
import Verif.Lemmas.ExtractBox2
/-
The merging of cartesian coordsets.
-/
namespace Conduit.Merge
open Conduit.Mesh Conduit.Part
variable {F : Type}

abbrev xyz : List Str := [chars! "x", chars! "y", chars! "z"]

theorem forNames_ex {α β : Type} (f : Nat → α → Res β) (P : Nat → β → Prop) (as : List α) (k : Nat)
    (h : ∀ (i : Nat) (a : α), as[i]? = some a → ∃ b, f (k + i) a = .ok b ∧ P (k + i) b) :
    ∃ bs, forNames f k as = .ok bs ∧ bs.length = as.length ∧ ∀ (i : Nat) (b : β), bs[i]? = some b → P (k + i) b := by
  induction as generalizing k with
  | nil => exact ⟨[], rfl, rfl, fun i b h => by simp at h⟩
  | cons a as ih =>
    obtain ⟨b, h1, h2⟩ := h 0 a rfl
    obtain ⟨bs, h3, h4, h5⟩ := ih (k + 1) (fun i a' ha => by
      have := h (i + 1) a' (by simpa using ha)
      rwa [show k + (i + 1) = k + 1 + i by omega] at this)
    refine ⟨b :: bs, ?_, by simp [h4], ?_⟩
    · unfold forNames
      rw [show f k a = .ok b from h1, Res.bind_ok, h3, Res.bind_ok]
    · intro i b' hb
      cases i with
      | zero => simp at hb; subst hb; exact h2
      | succ i =>
        have := h5 i b' (by simpa using hb)
        rwa [show k + (i + 1) = k + 1 + i by omega]

theorem systemOf_congr (l m : List Str) (h : ∀ k, k ∈ l ↔ k ∈ m) : systemOf l = systemOf m := by
  unfold systemOf
  simp only [h]

theorem cart_axes {o : MOps F} {cset : BNode F} {n : Nat} {pts : List (V3 F)} (h : Cart o cset n pts) :
    axes cset = .ok (xyz.take n) := by
  obtain ⟨c, hc, hk⟩ := h.axes.named
  exact axes_named cset c (chars! "explicit") (chars! "values") _ h.axes.type rfl hc h.axes.system (map_axisName _ _ h.axes.system hk)

theorem take_cases {n : Nat} (h1 : 1 ≤ n) (h3 : n ≤ 3) : n = 1 ∨ n = 2 ∨ n = 3 := by omega

theorem cart_sys {o : MOps F} {cset : BNode F} {n : Nat} {pts : List (V3 F)} (h : Cart o cset n pts) :
    coordsys cset = .ok (chars! "cartesian") := by
  obtain ⟨c, hc, hk⟩ := h.axes.named
  unfold coordsys
  rw [h.axes.type, Res.bind_ok]
  simp only [BNode.asString, Res.bind_ok]
  rw [show axesChild cset (chars! "explicit") = chars! "values" from rfl, hc, Res.bind_ok]
  have hx : chars! "x" ∈ c.kids.map (·.1) := (hk _).mpr (by rcases take_cases h.least h.most with rfl | rfl | rfl <;> decide)
  have hi : c.items = c.kids := by
    cases c with
    | obj ks => rfl
    | _ => simp [BNode.kids] at hx
  rw [hi]
  have hm : ∀ k, k ∈ (c.kids.map fun k => axisName k.1) ↔ k ∈ xyz.take n := by
    intro k
    have := map_axisName _ _ h.axes.system hk k
    rwa [List.map_map] at this
  rw [systemOf_congr _ _ hm]
  rcases take_cases h.least h.most with rfl | rfl | rfl <;> rfl

theorem minMax_flts {o : MOps F} (h : Ordered o) (l : List F) (s : F × F) :
    let r := l.foldl (fun s v => (minF o s.1 v, maxF o s.2 v)) s
    (o.lt s.1 r.1 = false ∧ o.lt r.2 s.2 = false) ∧ ∀ v ∈ l, o.lt v r.1 = false ∧ o.lt r.2 v = false := by
  induction l generalizing s with
  | nil => exact ⟨⟨h.irrefl _, h.irrefl _⟩, by simp⟩
  | cons x l ih =>
    simp only [List.foldl_cons]
    obtain ⟨⟨a1, a2⟩, a3⟩ := ih (minF o s.1 x, maxF o s.2 x)
    refine ⟨⟨h.negTrans _ _ _ (minF_le h _ _).1 a1, h.negTrans _ _ _ a2 (le_maxF h _ _).1⟩, ?_⟩
    intro v hv
    rcases List.mem_cons.mp hv with rfl | hv
    · exact ⟨h.negTrans _ _ _ (minF_le h _ _).2 a1, h.negTrans _ _ _ a2 (le_maxF h _ _).2⟩
    · exact a3 v hv

theorem minMax_ints (l : List Int) (s : Int × Int) :
    let r := l.foldl (fun (s : Int × Int) v => (if v < s.1 then v else s.1, if s.2 < v then v else s.2)) s
    (r.1 ≤ s.1 ∧ s.2 ≤ r.2) ∧ ∀ v ∈ l, r.1 ≤ v ∧ v ≤ r.2 := by
  induction l generalizing s with
  | nil => exact ⟨⟨Int.le_refl _, Int.le_refl _⟩, by simp⟩
  | cons x l ih =>
    simp only [List.foldl_cons]
    obtain ⟨⟨a1, a2⟩, a3⟩ := ih (if x < s.1 then x else s.1, if s.2 < x then x else s.2)
    have b1 : (if x < s.1 then x else s.1) ≤ s.1 ∧ (if x < s.1 then x else s.1) ≤ x := by split <;> omega
    have b2 : s.2 ≤ (if s.2 < x then x else s.2) ∧ x ≤ (if s.2 < x then x else s.2) := by split <;> omega
    dsimp only at a1 a2
    refine ⟨⟨a1.trans b1.1, b2.1.trans a2⟩, ?_⟩
    · intro v hv
      rcases List.mem_cons.mp hv with rfl | hv
      · exact ⟨a1.trans b1.2, b2.2.trans a2⟩
      · exact a3 v hv

theorem minMax_ok (o : MOps F) (c : BNode F) (l : List F) (h : Numbers o c l) :
    ∃ b, minMax o c = .ok b ∧ (Ordered o → ∀ v ∈ l, o.lt v b.1 = false ∧ o.lt b.2 v = false) := by
  rcases h with ⟨t, li, rfl, rfl⟩ | ⟨w, rfl⟩
  · refine ⟨_, rfl, fun ho v hv => ?_⟩
    obtain ⟨z, hz, rfl⟩ := List.mem_map.mp hv
    have := (minMax_ints li (t.maxVal, t.minVal)).2 z hz
    exact ⟨ho.ofInt _ _ this.1, ho.ofInt _ _ this.2⟩
  · exact ⟨_, rfl, fun ho v hv => (minMax_flts ho l _).2 v hv⟩

/-- The box has the points. -/
def Covers (o : MOps F) (ext : List (F × F)) (pts : List (V3 F)) : Prop :=
  ∀ p ∈ pts, ∀ d, d < 3 → o.lt (p.at d) (ext.getD d (o.arith.zero, o.arith.zero)).1 = false ∧
    o.lt (ext.getD d (o.arith.zero, o.arith.zero)).2 (p.at d) = false

theorem take_get (n d : Nat) (h3 : n ≤ 3) (hd : d < n) : ∃ a, (xyz.take n)[d]? = some a := by
  have : d < (xyz.take n).length := by simp; omega
  exact ⟨_, List.getElem?_eq_getElem this⟩

theorem cart_extents {o : MOps F} {cset : BNode F} {n : Nat} {pts : List (V3 F)} (h : Cart o cset n pts) :
    ∃ ext, extents o cset = .ok ext ∧ (Ordered o → Covers o ext pts) := by
  obtain ⟨v, hv, hc⟩ := h.values
  obtain ⟨bs, h1, h2, h3⟩ := forNames_ex (fun (i : Nat) a => if chars! "explicit" = chars! "uniform" then uniformExtent o cset i a
      else do minMax o (← (← cset.get (chars! "values")).get a))
    (fun d b => Ordered o → ∀ p ∈ pts, o.lt (p.at d) b.1 = false ∧ o.lt b.2 (p.at d) = false) (xyz.take n) 0 (by
      intro i a ha
      obtain ⟨c, e1, e2⟩ := hc i a ha
      obtain ⟨b, e3, e4⟩ := minMax_ok o c _ e2
      refine ⟨b, ?_, fun ho p hp => by rw [Nat.zero_add]; exact e4 ho _ (List.mem_map_of_mem hp)⟩
      rw [if_neg (by decide), hv, Res.bind_ok, e1, Res.bind_ok, e3])
  refine ⟨bs, ?_, fun ho p hp d hd => ?_⟩
  · unfold extents
    rw [h.axes.type, Res.bind_ok]
    simp only [BNode.asString, Res.bind_ok]
    rw [cart_axes h, Res.bind_ok]
    exact h1
  · have hlen : bs.length = n := by rw [h2]; simp; exact h.most
    rcases Nat.lt_or_ge d n with hn | hn
    · have hb : bs[d]? = some bs[d] := List.getElem?_eq_getElem (by omega)
      have := h3 d _ hb ho p hp
      rw [List.getD_eq_getElem?_getD, hb]
      simpa using this
    · rw [List.getD_eq_getElem?_getD, List.getElem?_eq_none (by omega)]
      rw [h.flat p hp d hn hd]
      exact ⟨ho.irrefl _, ho.irrefl _⟩

theorem cart_prepare {o : MOps F} {cset : BNode F} {n : Nat} {pts : List (V3 F)} (h : Cart o cset n pts) :
    ∃ ext, prepare o cset = .ok ⟨n, ext, .cartesian, cset⟩ ∧ (Ordered o → Covers o ext pts) := by
  obtain ⟨ext, h1, h2⟩ := cart_extents h
  refine ⟨ext, ?_, h2⟩
  unfold prepare
  rw [h.axes.type, Res.bind_ok]
  simp only [BNode.asString, Res.bind_ok]
  rw [cart_axes h, Res.bind_ok, h1, Res.bind_ok, cart_sys h, Res.bind_ok, if_neg (by decide), if_neg (by decide)]
  have : (xyz.take n).length = n := by simp; exact h.most
  rw [this]; rfl

theorem floats_ok {o : MOps F} {c : BNode F} {l : List F} (h : Numbers o c l) : floats o c = .ok l := by
  rcases h with ⟨t, li, rfl, rfl⟩ | ⟨w, rfl⟩ <;> rfl

theorem points_back (o : MOps F) (n : Nat) (pts : List (V3 F)) (h1 : 1 ≤ n)
    (hf : ∀ p ∈ pts, ∀ d, n ≤ d → d < 3 → p.at d = o.arith.zero) :
    pointsOf o (some (pts.map (·.at 0))) (if 1 < n then some (pts.map (·.at 1)) else none)
      (if 2 < n then some (pts.map (·.at 2)) else none) = .ok pts := by
  unfold pointsOf
  dsimp only
  obtain ⟨bs, e1, e2⟩ := mapM_res (fun i => do
      let a ← coordAt o (some (pts.map (·.at 0))) i
      let b ← coordAt o (if 1 < n then some (pts.map (·.at 1)) else none) i
      let c ← coordAt o (if (if 1 < n then some (pts.map (·.at 1)) else none).isSome then
        (if 2 < n then some (pts.map (·.at 2)) else none) else none) i
      .ok (⟨a, b, c⟩ : V3 F)) (fun i b => pts[i]? = some b) (List.range (pts.map (·.at 0)).length) (by
    intro i hi
    have hi : i < pts.length := by simpa using hi
    have hp : pts[i]? = some pts[i] := List.getElem?_eq_getElem hi
    have hm : pts[i] ∈ pts := List.getElem_mem hi
    have hcol : ∀ d, coordAt o (some (pts.map (·.at d))) i = .ok (pts[i].at d) := by
      intro d; unfold coordAt; simp [hp]
    refine ⟨pts[i], ?_, hp⟩
    rw [hcol 0, Res.bind_ok]
    by_cases h2 : 1 < n
    · rw [if_pos h2, hcol 1, Res.bind_ok]
      by_cases h3 : 2 < n
      · rw [if_pos h3]; simp only [Option.isSome_some, if_true]; rw [hcol 2, Res.bind_ok]; rfl
      · rw [if_neg h3]
        simp only [ite_self, coordAt, Res.bind_ok]
        rw [← hf _ hm 2 (by omega) (by omega)]; rfl
    · rw [if_neg h2]
      simp only [Option.isSome_none, Bool.false_eq_true, if_false, coordAt, Res.bind_ok]
      have f1 := hf _ hm 1 (by omega) (by omega)
      have f2 := hf _ hm 2 (by omega) (by omega)
      simp only [V3.at] at f1 f2
      cases hx : pts[i] with
      | mk a b c => rw [hx] at f1 f2; dsimp only at f1 f2; rw [f1, f2]; rfl)
  rw [e1]
  congr 1
  apply List.ext_getElem?
  intro i
  have hlen := e2.length_eq
  simp at hlen
  rcases Nat.lt_or_ge i pts.length with hi | hi
  · have hb : bs[i]? = some bs[i] := List.getElem?_eq_getElem (by omega)
    have := forall2_get e2 i i bs[i] (by simp [hi]) hb
    rw [hb, this]
  · rw [List.getElem?_eq_none (by omega), List.getElem?_eq_none hi]

theorem cart_iterate {o : MOps F} {cset : BNode F} {n : Nat} {pts : List (V3 F)} (h : Cart o cset n pts) :
    iterate o cset = .ok pts := by
  obtain ⟨v, hv, hc⟩ := h.values
  obtain ⟨c, hc', hk⟩ := h.axes.named
  rw [hv] at hc'; cases hc'
  have hcol : ∀ (d : Nat) (a : Str), xyz[d]? = some a → axisValues o v (some a) = .ok (if d < n then some (pts.map (·.at d)) else none) := by
    intro d a ha
    unfold axisValues
    dsimp only
    by_cases hd : d < n
    · obtain ⟨c, e1, e2⟩ := hc d a (by rw [List.getElem?_take_of_lt hd]; exact ha)
      rw [e1, if_pos hd]
      dsimp only
      rw [floats_ok e2]; rfl
    · rw [if_neg hd]
      have hno : a ∉ v.kids.map (·.1) := by
        intro hin
        have := (hk a).mp hin
        have h3 : d < 3 := (List.getElem?_eq_some_iff.mp ha).1
        have h4 : ∀ n d a, n ≤ 3 → ¬ d < n → xyz[d]? = some a → a ∉ xyz.take n := by
          intro n d a h5 h6 h7 h8
          have hnd : xyz.Nodup := by decide
          obtain ⟨j, hj, rfl⟩ := List.getElem_of_mem h8
          simp at hj
          rw [List.getElem_take] at h7
          obtain ⟨hl, h7⟩ := List.getElem?_eq_some_iff.mp h7
          have := (hnd.getElem_inj_iff).mp h7
          omega
        exact h4 n d a h.most hd ha this
      have : v.get a = .error := by
        unfold BNode.get
        cases hf : v.kids.find? fun k => k.1 == a with
        | none => rfl
        | some k =>
          exfalso; apply hno
          have h1 := List.mem_of_find?_eq_some hf
          have h2 := List.find?_some hf
          rw [List.mem_map]; exact ⟨k, h1, by simpa using h2⟩
      rw [this]
  have hx : v.hasChild (chars! "x") = true := by
    have := (hk (chars! "x")).mpr (by rcases take_cases h.least h.most with rfl | rfl | rfl <;> decide)
    obtain ⟨k, h1, h2⟩ := List.mem_map.mp this
    unfold BNode.hasChild
    rw [List.any_eq_true]; exact ⟨k, h1, by simpa using h2⟩
  unfold iterate
  rw [h.axes.type, Res.bind_ok]
  simp only [BNode.asString, Res.bind_ok]
  rw [if_neg (by simp), hv, Res.bind_ok]
  have hns : axisNames v = xyz := by unfold axisNames; rw [if_pos hx]
  rw [hns]
  have e0 := hcol 0 _ rfl
  have e1 := hcol 1 _ rfl
  have e2 := hcol 2 _ rfl
  rw [show xyz[0]? = some (chars! "x") from rfl, show xyz[1]? = some (chars! "y") from rfl, show xyz[2]? = some (chars! "z") from rfl,
    e0, Res.bind_ok, e1, Res.bind_ok, e2, Res.bind_ok, if_pos (by have := h.least; omega)]
  exact points_back o n pts h.least h.flat

theorem mapM_map' {α β γ : Type} (f : α → β) (g : β → Res γ) (l : List α) : (l.map f).mapM g = l.mapM fun a => g (f a) := by
  induction l with
  | nil => rfl
  | cons a l ih => rw [List.map_cons, List.mapM_cons, List.mapM_cons, ih]

theorem foldl_max (l : List Nat) (m : Nat) : m ≤ l.foldl max m ∧ (∀ x ∈ l, x ≤ l.foldl max m) ∧ (l.foldl max m = m ∨ l.foldl max m ∈ l) := by
  induction l generalizing m with
  | nil => simp
  | cons a l ih =>
    obtain ⟨h1, h2, h3⟩ := ih (max m a)
    simp only [List.foldl_cons]
    refine ⟨by omega, ?_, ?_⟩
    · intro x hx
      rcases List.mem_cons.mp hx with rfl | hx
      · omega
      · exact h2 x hx
    · rcases h3 with h3 | h3
      · rcases Nat.le_total m a with h | h
        · right; rw [h3, Nat.max_eq_right h]; simp
        · left; rw [h3, Nat.max_eq_left h]
      · right; simp [h3]

theorem forall2_map {α β γ : Type} {P : α → β → Prop} {l : List α} {m : List β} {f : β → γ} {g : α → γ} (h : List.Forall₂ P l m)
    (hp : ∀ a b, P a b → f b = g a) : m.map f = l.map g := by
  induction h with
  | nil => rfl
  | cons p _ ih => rw [List.map_cons, List.map_cons, ih, hp _ _ p]

/-- What is known of the coordset before merging. -/
def Known (o : MOps F) (x : In F) (w : Work F) : Prop :=
  w.dims = x.n ∧ w.sys = .cartesian ∧ w.cset = x.cset ∧ (Ordered o → Covers o w.ext x.pts)

theorem createOutput_ok (o : MOps F) (tol : F) (ins : List (In F)) (hin : ∀ x ∈ ins, Cart o x.cset x.n x.pts) (D : Nat)
    (hD : ∀ x ∈ ins, x.n ≤ D) (hD' : ∃ x ∈ ins, x.n = D) (R : List (V3 F)) (idss : List (List Nat))
    (h : Steps o tol [] R (ins.map (·.pts)) idss) : Merged o tol ins (createOutput o .cartesian D idss (R.map (row D))) R idss := by
  have hD3 : D ≤ 3 := by obtain ⟨x, h1, h2⟩ := hD'; rw [← h2]; exact (hin x h1).most
  have hsome : ∀ (i : Nat) (x : In F), ins[i]? = some x → (ins.map (·.pts))[i]? = some x.pts := by
    intro i x hx; rw [List.getElem?_map, hx]; rfl
  have hnames : (List.range D).map (fun d => xyz.getD d []) = xyz.take D := by
    have : D = 0 ∨ D = 1 ∨ D = 2 ∨ D = 3 := by omega
    rcases this with rfl | rfl | rfl | rfl <;> rfl
  refine ⟨rfl, ⟨D, _, hD, hD', rfl, ?_, ?_⟩, rfl, by rw [h.len]; simp, ?_, ?_, ?_⟩
  · rw [← hnames]; simp only [BNode.kids, List.map_map]; rfl
  · intro d a ha
    have hd : d < D := by
      have := (List.getElem?_eq_some_iff.mp ha).1
      simp at this; omega
    rw [List.getElem?_take_of_lt hd] at ha
    have hg := get_named ((List.range D).map fun d => (xyz.getD d [], BNode.flts true ((R.map (row D)).map fun r => r.getD d o.arith.zero)))
      (by rw [List.map_map]; show ((List.range D).map fun d => xyz.getD d []).Nodup; rw [hnames]
          exact (List.take_sublist _ _).nodup (by decide))
      (a, .flts true (R.map (·.at d))) (by
        rw [List.mem_map]
        refine ⟨d, by simpa using hd, ?_⟩
        rw [List.getD_eq_getElem?_getD, ha, List.map_map]
        congr 2
        apply List.map_congr_left
        intro p _
        show (row D p).getD d _ = _
        have : d < 3 := by omega
        unfold row
        rw [List.getD_eq_getElem?_getD, List.getElem?_take_of_lt hd]
        have : d = 0 ∨ d = 1 ∨ d = 2 := by omega
        rcases this with rfl | rfl | rfl <;> rfl)
    exact hg
  · intro i x m hx hm
    exact h.lens i _ _ (hsome i x hx) hm
  · rintro i k p ⟨x, hx, hp⟩
    obtain ⟨ids, id, q, e1, e2, e3, e4⟩ := h.close i k _ p (hsome i x hx) hp
    exact ⟨id, q, ⟨ids, e1, e2⟩, by simpa using e3, e4⟩
  · intro id q hq
    obtain ⟨i, k, ps, ids, e1, e2, e3, e4⟩ := h.new id q (by simp) (by simpa using hq)
    rw [List.getElem?_map] at e1
    cases hx : ins[i]? with
    | none => rw [hx] at e1; cases e1
    | some x =>
      rw [hx] at e1; cases e1
      exact ⟨i, k, ⟨x, hx, e2⟩, ids, e3, e4⟩

theorem overlap_of (o : MOps F) (ho : Ordered o) (e f : List (F × F)) (ps qs : List (V3 F)) (p q : V3 F) (he : Covers o e ps)
    (hf : Covers o f qs) (hp : p ∈ ps) (hq : q ∈ qs) (hs : Same o p q) : overlap o e f = true := by
  unfold overlap
  rw [List.all_eq_true]
  intro d hd
  have hd : d < 3 := by simpa using hd
  obtain ⟨a1, a2⟩ := he p hp d hd
  obtain ⟨b1, b2⟩ := hf q hq d hd
  obtain ⟨s1, s2⟩ := hs d hd
  dsimp only
  rw [ho.le_iff, ho.le_iff, ho.negTrans _ _ _ a2 (ho.negTrans _ _ _ s1 b1), ho.negTrans _ _ _ b2 (ho.negTrans _ _ _ s2 a1)]
  rfl

theorem anyOverlap_of (o : MOps F) (l : List (List (F × F))) (i j : Nat) (e f : List (F × F)) (hi : l[i]? = some e) (hj : l[j]? = some f)
    (hij : i ≠ j) (h : overlap o e f = true) : anyOverlap o l = true := by
  induction l generalizing i j with
  | nil => simp at hi
  | cons a l ih =>
    unfold anyOverlap
    rw [Bool.or_eq_true]
    cases i with
    | zero =>
      cases j with
      | zero => exact absurd rfl hij
      | succ j =>
        simp at hi hj; subst hi
        left; rw [List.any_eq_true]
        exact ⟨f, List.mem_of_getElem? hj, by simp [h]⟩
    | succ i =>
      cases j with
      | zero =>
        simp at hi hj; subst hj
        left; rw [List.any_eq_true]
        exact ⟨e, List.mem_of_getElem? hi, by simp [h]⟩
      | succ j =>
        right
        exact ih i j (by simpa using hi) (by simpa using hj) (by omega)

/-- What the merging of cartesian coordsets gives; if two of them have a point in common no point of the result is in reach of one
    before it. -/
theorem execute_ok (o : MOps F) (tol : F) (bucket : Nat) (ins : List (In F)) (h2 : 2 ≤ ins.length)
    (hin : ∀ x ∈ ins, Cart o x.cset x.n x.pts) :
    ∃ out R idss, execute o bucket tol (ins.map (·.cset)) = .ok (some out) ∧ Merged o tol ins out R idss ∧
      (Ordered o → ∀ i j k l p q, i ≠ j → PointAt ins i k p → PointAt ins j l q → Same o p q → Apart o tol R) := by
  obtain ⟨ws, e1, e2⟩ := mapM_res (fun x : In F => prepare o x.cset) (Known o) ins (by
    intro x hx
    obtain ⟨ext, a1, a2⟩ := cart_prepare (hin x hx)
    exact ⟨_, a1, rfl, rfl, rfl, a2⟩)
  have hfil : (ins.map (·.cset)).filter (fun c => c.hasChild (chars! "type")) = ins.map (·.cset) := by
    rw [List.filter_eq_self]
    intro c hc
    obtain ⟨x, hx, rfl⟩ := List.mem_map.mp hc
    exact (hasChild_iff_get _ _).mpr ⟨_, (hin x hx).axes.type⟩
  have hlen : ws.length = ins.length := e2.length_eq.symm
  have hdims : ws.map (·.dims) = ins.map (·.n) := forall2_map e2 fun _ _ h => h.1
  have hsys : ∀ w ∈ ws, w.sys = .cartesian := by
    intro w hw
    obtain ⟨i, hi, rfl⟩ := List.getElem_of_mem hw
    exact (forall2_get e2 i ins[i] _ (List.getElem?_eq_getElem (by omega)) (List.getElem?_eq_getElem hi)).2.1
  have hpts : ∀ out, out = Sys.cartesian → ws.mapM (inSystem o out) = .ok (ins.map (·.pts)) := by
    rintro out rfl
    clear hlen hfil e1 hdims h2
    induction e2 with
    | nil => rfl
    | @cons x w ins ws p e2 ih =>
      rw [List.mapM_cons]
      have : inSystem o .cartesian w = .ok x.pts := by
        unfold inSystem
        rw [p.2.2.1, cart_iterate (hin x (by simp)), Res.bind_ok, if_neg (by rw [p.2.1]; simp)]
      rw [this, Res.bind_ok, ih (fun y hy => hin y (by simp [hy])) (fun w hw => hsys w (by simp [hw])), Res.bind_ok]
      rfl
  obtain ⟨x0, hx0⟩ : ∃ x, x ∈ ins := by
    cases ins with
    | nil => simp at h2
    | cons x l => exact ⟨x, by simp⟩
  have hout : outSystem (ws.map (·.sys)) = some .cartesian := by
    unfold outSystem
    rw [if_pos]
    rw [Bool.or_eq_true]; left
    cases ws with
    | nil => simp at hlen; omega
    | cons w ws => simp [hsys w (by simp)]
  obtain ⟨d1, d2, d3⟩ := foldl_max (ins.map (·.n)) 0
  have hD : ∀ x ∈ ins, x.n ≤ (ins.map (·.n)).foldl max 0 := fun x hx => d2 _ (List.mem_map_of_mem hx)
  have hD' : ∃ x ∈ ins, x.n = (ins.map (·.n)).foldl max 0 := by
    rcases d3 with d3 | d3
    · have := hD x0 hx0
      have := (hin x0 hx0).least
      omega
    · obtain ⟨x, hx, h⟩ := List.mem_map.mp d3
      exact ⟨x, hx, h⟩
  have hex : execute o bucket tol (ins.map (·.cset)) = (if anyOverlap o (ws.map (·.ext)) then
      (.ok (some (createOutput o .cartesian ((ins.map (·.n)).foldl max 0)
        (mergeSets o tol bucket ((ins.map (·.n)).foldl max 0) ⟨[], none⟩ (ins.map (·.pts))).1
        (mergeSets o tol bucket ((ins.map (·.n)).foldl max 0) ⟨[], none⟩ (ins.map (·.pts))).2.rows)))
      else (.ok (some (createOutput o .cartesian ((ins.map (·.n)).foldl max 0)
        (appendSets ((ins.map (·.n)).foldl max 0) [] (ins.map (·.pts))).1
        (appendSets ((ins.map (·.n)).foldl max 0) [] (ins.map (·.pts))).2)))) := by
    have h1 : ∀ cs : List (BNode F), 2 ≤ cs.length → execute o bucket tol cs = (do
        let ws ← (cs.filter fun c => c.hasChild (chars! "type")).mapM (prepare o)
        let dim := (ws.map (·.dims)).foldl max 0
        match outSystem (ws.map (·.sys)) with
        | none => .ok none
        | some out =>
          if anyOverlap o (ws.map (·.ext)) then do
            let pss ← ws.mapM (inSystem o .cartesian)
            let r := mergeSets o tol bucket dim ⟨[], none⟩ pss
            .ok (some (createOutput o out dim r.1 r.2.rows))
          else do
            let pss ← ws.mapM (inSystem o out)
            let r := appendSets dim [] pss
            .ok (some (createOutput o out dim r.1 r.2))) := by
      intro cs hcs
      match cs, hcs with
      | a :: b :: l, _ => rfl
    rw [h1 _ (by simpa using h2), hfil, mapM_map', e1, Res.bind_ok]
    dsimp only
    rw [hout, hdims]
    dsimp only
    split
    · rw [hpts _ rfl, Res.bind_ok]
    · rw [hpts _ rfl, Res.bind_ok]
  rw [hex]
  cases hov : anyOverlap o (ws.map (·.ext)) with
  | true =>
    obtain ⟨R, a1, a2, a3⟩ := mergeSets_ok o tol bucket ((ins.map (·.n)).foldl max 0) (ins.map (·.pts)) ⟨[], none⟩ [] (inv_empty o _)
    have hr := a1.rows
    rw [List.nil_append] at hr
    rw [hr]
    exact ⟨_, R, _, rfl, createOutput_ok o tol ins hin _ hD hD' R _ a2, fun ho _ _ _ _ _ _ _ _ _ _ => by
      have := a3 ho (fun i j q q' _ hi => by simp at hi)
      simpa using this⟩
  | false =>
    obtain ⟨R, a1, a2⟩ := appendSets_ok o tol ((ins.map (·.n)).foldl max 0) (ins.map (·.pts)) []
    rw [List.map_nil, List.nil_append] at a1
    rw [List.map_nil] at a2
    rw [a1]
    refine ⟨_, R, _, rfl, createOutput_ok o tol ins hin _ hD hD' R _ a2, ?_⟩
    rintro ho i j k l p q hij ⟨x, hx, hp⟩ ⟨y, hy, hq⟩ hs
    exfalso
    have hwi : ws[i]? = some (ws[i]'(by have := (List.getElem?_eq_some_iff.mp hx).1; omega)) := List.getElem?_eq_getElem _
    have hwj : ws[j]? = some (ws[j]'(by have := (List.getElem?_eq_some_iff.mp hy).1; omega)) := List.getElem?_eq_getElem _
    have c1 := (forall2_get e2 i _ _ hx hwi).2.2.2 ho
    have c2 := (forall2_get e2 j _ _ hy hwj).2.2.2 ho
    have := anyOverlap_of o (ws.map (·.ext)) i j _ _ (by rw [List.getElem?_map, hwi]; rfl) (by rw [List.getElem?_map, hwj]; rfl) hij
      (overlap_of o ho _ _ _ _ p q c1 c2 (List.mem_of_getElem? hp) (List.mem_of_getElem? hq) hs)
    rw [hov] at this; cases this

end Conduit.Merge
