import Verif.Lemmas.Matset2
/-
Lemmas on the conversions that build a sparse by element matset.
-/
namespace Conduit.Matset
open Conduit.O2M (rd wr ones size target entries)
variable {α β γ σ : Type}

/-! ### matsets laid out group by group -/

/-- where group `e` starts -/
def pre (gs : List (List γ)) (e : Nat) : Nat := ((gs.take e).map List.length).sum

/-- The relation of `S` lists the groups one after another. -/
structure Grouped (S : Sbe α) (gs : List (List γ)) : Prop where
  sizes : S.sizes = some (gs.map fun g => (g.length : Int))
  offsets : S.offsets = some ((List.range gs.length).map fun e => (pre gs e : Int))
  indices : S.indices = none

theorem pre_succ (gs : List (List γ)) (e : Nat) (g : List γ) (h : gs[e]? = some g) : pre gs (e + 1) = pre gs e + g.length := by
  unfold pre
  obtain ⟨he, rfl⟩ := List.getElem?_eq_some_iff.mp h
  rw [List.take_add_one, List.map_append, List.sum_append]
  simp [h]

theorem flatten_at (gs : List (List γ)) (e j : Nat) (g : List γ) (h : gs[e]? = some g) (hj : j < g.length) :
    gs.flatten[pre gs e + j]? = g[j]? := by
  induction gs generalizing e with
  | nil => simp at h
  | cons x gs ih =>
    cases e with
    | zero =>
      simp only [List.getElem?_cons_zero, Option.some.injEq] at h
      subst h
      simp [pre, List.getElem?_append_left hj]
    | succ e =>
      have h : gs[e]? = some g := by simpa using h
      have := ih e h
      rw [← this]
      have hp : pre (x :: gs) (e + 1) = x.length + pre gs e := by simp [pre]
      rw [hp, List.flatten_cons, List.getElem?_append_right (by omega)]
      congr 1
      omega

theorem Grouped.zones {S : Sbe α} {gs : List (List γ)} (h : Grouped S gs) : ones S.rel = gs.length := by
  simp [ones, Sbe.rel, h.sizes]

theorem Grouped.size {S : Sbe α} {gs : List (List γ)} (h : Grouped S gs) {e : Nat} {g : List γ} (he : gs[e]? = some g) :
    O2M.size S.rel e = g.length := by
  simp [O2M.size, Sbe.rel, h.sizes, he]

theorem Grouped.off {S : Sbe α} {gs : List (List γ)} (h : Grouped S gs) {e : Nat} (he : e < gs.length) (j : Nat) :
    target S.rel e j = ((pre gs e + j : Nat) : Int) := by
  simp [target, O2M.off, Sbe.rel, h.indices, h.offsets, he]

theorem Grouped.slot {S : Sbe α} {gs : List (List γ)} (h : Grouped S gs) (e : Nat) (x : γ) :
    (∃ d, Slot S e d ∧ gs.flatten[d]? = some x) ↔ ∃ g, gs[e]? = some g ∧ x ∈ g := by
  constructor
  · rintro ⟨d, ⟨he, j, hj, ht⟩, hx⟩
    rw [h.zones] at he
    have hg := List.getElem?_eq_getElem he
    rw [h.size hg] at hj
    rw [h.off he] at ht
    have : pre gs e + j = d := by omega
    subst this
    rw [flatten_at gs e j _ hg hj] at hx
    exact ⟨_, hg, List.mem_of_getElem? hx⟩
  · rintro ⟨g, hg, hx⟩
    obtain ⟨j, hj, hjx⟩ := List.getElem_of_mem hx
    obtain ⟨he, _⟩ := List.getElem?_eq_some_iff.mp hg
    refine ⟨pre gs e + j, ⟨by rw [h.zones]; exact he, j, by rw [h.size hg]; exact hj, by rw [h.off he]⟩, ?_⟩
    rw [flatten_at gs e j _ hg hj, List.getElem?_eq_getElem hj, hjx]

theorem Grouped.lt {S : Sbe α} {gs : List (List γ)} (h : Grouped S gs) {e d : Nat} (hs : Slot S e d) :
    ∃ x g, gs.flatten[d]? = some x ∧ gs[e]? = some g ∧ x ∈ g := by
  obtain ⟨he, j, hj, ht⟩ := hs
  rw [h.zones] at he
  have hg := List.getElem?_eq_getElem he
  rw [h.size hg] at hj
  rw [h.off he] at ht
  have : pre gs e + j = d := by omega
  subst this
  refine ⟨gs[e][j], gs[e], ?_, hg, List.getElem_mem _⟩
  rw [flatten_at gs e j _ hg hj, List.getElem?_eq_getElem hj]

theorem Grouped.wf {S : Sbe α} {gs : List (List γ)} (h : Grouped S gs) (idf : γ → Int) (vf : γ → α)
    (hids : S.ids = gs.flatten.map idf) (hvals : S.vals = gs.flatten.map vf)
    (hn : (S.matmap.map (·.1)).Nodup) (hm : (S.matmap.map (·.2)).Nodup)
    (hk : ∀ g ∈ gs, ∀ x ∈ g, idf x ∈ S.matmap.map (·.2)) : SbeWF S gs.length where
  rel := {
    sizes_nonneg := by
      intro s hs x hx
      simp only [Sbe.rel, h.sizes, Option.some.injEq] at hs
      subst hs
      obtain ⟨g, _, rfl⟩ := List.mem_map.mp hx
      omega
    offsets_len := by
      intro o ho
      rw [h.zones]
      simp only [Sbe.rel, h.offsets, Option.some.injEq] at ho
      subst ho
      simp
    indices_in := by
      intro ix hix
      simp [Sbe.rel, h.indices] at hix }
  zones := h.zones
  offs := ⟨_, h.offsets, by simp⟩
  none := fun _ => h.indices
  pos := by
    intro i hi j _
    rw [h.off hi]; omega
  data := by
    intro e d hs
    obtain ⟨x, g, hx, _, _⟩ := h.lt hs
    obtain ⟨hd, _⟩ := List.getElem?_eq_some_iff.mp hx
    rw [hids, hvals, List.length_map, List.length_map]; exact ⟨hd, hd⟩
  names := hn
  nums := hm
  known := by
    intro e d id hs hid
    obtain ⟨x, g, hx, hg, hxg⟩ := h.lt hs
    rw [hids, List.getElem?_map, hx] at hid
    simp only [Option.map_some, Option.some.injEq] at hid
    subst hid
    exact hk g (List.mem_of_getElem? hg) x hxg

theorem Grouped.has {S : Sbe α} {gs : List (List γ)} (h : Grouped S gs) (idf : γ → Int) (vf : γ → β)
    (hids : S.ids = gs.flatten.map idf) (e : Nat) (n : Str) (v : β) :
    SbeHas S (gs.flatten.map vf) e n v ↔ ∃ g x, gs[e]? = some g ∧ x ∈ g ∧ (n, idf x) ∈ S.matmap ∧ vf x = v := by
  constructor
  · rintro ⟨d, id, hs, hid, hm, hv⟩
    obtain ⟨x, g, hx, hg, hxg⟩ := h.lt hs
    rw [hids, List.getElem?_map, hx] at hid
    rw [List.getElem?_map, hx] at hv
    simp only [Option.map_some, Option.some.injEq] at hid hv
    subst hid
    exact ⟨g, x, hg, hxg, hm, hv⟩
  · rintro ⟨g, x, hg, hx, hm, rfl⟩
    obtain ⟨d, hs, hd⟩ := (h.slot e x).mpr ⟨g, hg, hx⟩
    exact ⟨d, idf x, hs, by rw [hids, List.getElem?_map, hd]; rfl, hm, by rw [List.getElem?_map, hd]; rfl⟩

theorem Grouped.has2 {S : Sbe α} {gs : List (List γ)} (h : Grouped S gs) (idf : γ → Int) (vf : γ → α) (wf : γ → β)
    (hids : S.ids = gs.flatten.map idf) (hvals : S.vals = gs.flatten.map vf) (e : Nat) (n : Str) (v : α) (w : β) :
    SbeHas2 S (gs.flatten.map wf) e n v w ↔
      ∃ g x, gs[e]? = some g ∧ x ∈ g ∧ (n, idf x) ∈ S.matmap ∧ vf x = v ∧ wf x = w := by
  constructor
  · rintro ⟨d, id, hs, hid, hm, hv, hw⟩
    obtain ⟨x, g, hx, hg, hxg⟩ := h.lt hs
    rw [hids, List.getElem?_map, hx] at hid
    rw [hvals, List.getElem?_map, hx] at hv
    rw [List.getElem?_map, hx] at hw
    simp only [Option.map_some, Option.some.injEq] at hid hv hw
    subst hid
    exact ⟨g, x, hg, hxg, hm, hv, hw⟩
  · rintro ⟨g, x, hg, hx, hm, rfl, rfl⟩
    obtain ⟨d, hs, hd⟩ := (h.slot e x).mpr ⟨g, hg, hx⟩
    exact ⟨d, idf x, hs, by rw [hids, List.getElem?_map, hd]; rfl, hm, by rw [hvals, List.getElem?_map, hd]; rfl,
      by rw [List.getElem?_map, hd]; rfl⟩

theorem Grouped.once {S : Sbe α} {gs : List (List γ)} (h : Grouped S gs) (idf : γ → Int)
    (hids : S.ids = gs.flatten.map idf) (hn : ∀ g ∈ gs, (g.map idf).Nodup) : Once S := by
  intro e j j' id he hj hj' h1 h2
  rw [h.zones] at he
  have hg := List.getElem?_eq_getElem he
  rw [h.size hg] at hj hj'
  rw [h.off he] at h1 h2
  simp only [Int.toNat_natCast, hids, List.getElem?_map, flatten_at gs e j _ hg hj, flatten_at gs e j' _ hg hj'] at h1 h2
  have hnd := hn _ (List.getElem_mem he)
  have a1 : (gs[e].map idf)[j]? = some id := by rw [List.getElem?_map]; exact h1
  have a2 : (gs[e].map idf)[j']? = some id := by rw [List.getElem?_map]; exact h2
  exact (List.getElem?_inj (by simpa using hj) hnd).mp (a1.trans a2.symm)

/-! ### the loop that appends the groups -/

/-- the vectors after the groups `gs` -/
def Acc.After (a : Acc α) (gs : List (List γ)) (idf : γ → Int) (vf : γ → α) : Prop :=
  a.vals = gs.flatten.map vf ∧ a.ids = gs.flatten.map idf ∧ a.sizes = gs.map (fun g => (g.length : Int)) ∧
    a.offsets = (List.range gs.length).map (fun e => (pre gs e : Int)) ∧ a.offset = (pre gs gs.length : Nat)

theorem pre_append (gs : List (List γ)) (g : List γ) (e : Nat) (h : e ≤ gs.length) : pre (gs ++ [g]) e = pre gs e := by
  unfold pre; rw [List.take_append_of_le_length h]

theorem Acc.After.push {a : Acc α} {gs : List (List γ)} {idf : γ → Int} {vf : γ → α} (h : a.After gs idf vf) (g : List γ) :
    Acc.After ⟨a.vals ++ g.map vf, a.ids ++ g.map idf, a.sizes ++ [(g.length : Int)], a.offsets ++ [a.offset],
      a.offset + (g.length : Int)⟩ (gs ++ [g]) idf vf := by
  obtain ⟨h1, h2, h3, h4, h5⟩ := h
  refine ⟨by simp [h1], by simp [h2], by simp [h3], ?_, ?_⟩
  · simp only [h4, h5, List.length_append, List.length_singleton, List.range_succ, List.map_append, List.map_cons, List.map_nil]
    rw [pre_append _ _ _ (Nat.le_refl _)]
    congr 1
    apply List.map_congr_left
    intro e he
    rw [pre_append _ _ _ (by simp at he; omega)]
  · simp only [h5, List.length_append, List.length_singleton]
    rw [pre_succ (gs ++ [g]) gs.length g (by simp), pre_append _ _ _ (Nat.le_refl _)]
    simp

/-! ### full to sparse by element -/

/-- the materials of matset and field side by side, with their position -/
def table (vfs : List (Str × List α)) (fvs : List (Str × List β)) : List (((Str × List α) × (Str × List β)) × Nat) :=
  (vfs.zip fvs).zipIdx

/-- the entries kept for element `e` -/
def kept (big : α → Bool) (dα : α) (vfs : List (Str × List α)) (fvs : List (Str × List β)) (e : Nat) :
    List (Nat × (((Str × List α) × (Str × List β)) × Nat)) :=
  ((table vfs fvs).filter fun t => big (t.1.1.2.getD e dα)).map fun t => (e, t)

theorem full_zone (big : α → Bool) (dα : α) (e : Nat) (cols : List (List α)) (k : Nat) (h : ∀ c ∈ cols, e < c.length)
    (r : List α × List Int × Int) :
    (cols.zipIdx k).foldlM (fun (r : List α × List Int × Int) cm => do
      let v ← rd cm.1 (e : Int)
      if big v then Res.ok (r.1 ++ [v], r.2.1 ++ [(cm.2 : Int)], r.2.2 + 1) else .ok r) r =
    .ok (r.1 ++ ((cols.zipIdx k).filter fun cm => big (cm.1.getD e dα)).map (fun cm => cm.1.getD e dα),
         r.2.1 ++ ((cols.zipIdx k).filter fun cm => big (cm.1.getD e dα)).map (fun cm => (cm.2 : Int)),
         r.2.2 + (((cols.zipIdx k).filter fun cm => big (cm.1.getD e dα)).length : Int)) := by
  induction cols generalizing k r with
  | nil => simp
  | cons c cols ih =>
    rw [List.zipIdx_cons, List.foldlM_cons]
    rw [O2M.rd_getD c e dα (h c (by simp))]
    simp only [Res.bind_ok]
    by_cases hb : big (c.getD e dα) = true
    · rw [if_pos hb, Res.bind_ok, ih (k + 1) (fun x hx => h x (by simp [hx]))]
      rw [List.filter_cons_of_pos (by simpa using hb)]
      simp only [List.map_cons, List.append_assoc, List.singleton_append, List.length_cons, Res.ok.injEq, Prod.mk.injEq, true_and]
      omega
    · rw [if_neg hb, Res.bind_ok, ih (k + 1) (fun x hx => h x (by simp [hx]))]
      rw [List.filter_cons_of_neg (by simpa using hb)]

theorem zipIdx_map' {δ ε : Type} (f : δ → ε) (l : List δ) (k : Nat) : (l.map f).zipIdx k = (l.zipIdx k).map fun x => (f x.1, x.2) := by
  induction l generalizing k with
  | nil => rfl
  | cons x l ih => simp [ih]

theorem zip_fst {δ ε : Type} (l : List δ) (l' : List ε) (h : l.length ≤ l'.length) : (l.zip l').map (·.1) = l := by
  rw [List.map_fst_zip]; exact h

theorem kept_cols (big : α → Bool) (dα : α) (vfs : List (Str × List α)) (fvs : List (Str × List β)) (h : vfs.length = fvs.length) (e : Nat) :
    ((vfs.map (·.2)).zipIdx.filter fun cm => big (cm.1.getD e dα)) =
      (kept big dα vfs fvs e).map fun t => (t.2.1.1.2, t.2.2) := by
  unfold kept table
  have hz : vfs.map (·.2) = (vfs.zip fvs).map fun t => t.1.2 := by
    have := congrArg (List.map (fun x : Str × List α => x.2)) (zip_fst vfs fvs (by omega))
    rw [List.map_map] at this
    exact this.symm
  rw [hz, zipIdx_map', List.filter_map, List.map_map]
  rfl

theorem fullToSbe_loop (big : α → Bool) (dα : α) (vfs : List (Str × List α)) (fvs : List (Str × List β))
    (hlen : vfs.length = fvs.length) (N : Nat) (h : ∀ c ∈ vfs, c.2.length = N) :
    ∀ k ≤ N, ∃ a : Acc α, (List.range k).foldlM (fun (a : Acc α) (e : Nat) => do
      let r ← (vfs.map fun (x : Str × List α) => x.2).zipIdx.foldlM (fun (r : List α × List Int × Int) (cm : List α × Nat) => do
        let v ← rd cm.1 (e : Int)
        if big v then Res.ok (r.1 ++ [v], r.2.1 ++ [(cm.2 : Int)], r.2.2 + 1) else .ok r) (a.vals, a.ids, 0)
      Res.ok (⟨r.1, r.2.1, a.sizes ++ [r.2.2], a.offsets ++ [a.offset], a.offset + r.2.2⟩ : Acc α)) ⟨[], [], [], [], 0⟩ = .ok a ∧
      a.After ((List.range k).map (kept big dα vfs fvs)) (fun x => (x.2.2 : Int)) (fun x => x.2.1.1.2.getD x.1 dα) := by
  intro k
  induction k with
  | zero => intro _; exact ⟨_, rfl, rfl, rfl, rfl, rfl, rfl⟩
  | succ k ih =>
    intro hk
    obtain ⟨a, ha, haft⟩ := ih (by omega)
    have hp := haft.push (kept big dα vfs fvs k)
    refine ⟨_, ?_, by rw [List.range_succ, List.map_append]; exact hp⟩
    rw [List.range_succ, foldlM_append', ha, Res.bind_ok, List.foldlM_cons]
    rw [full_zone big dα k _ 0 (by
      intro c hc
      obtain ⟨x, hx, rfl⟩ := List.mem_map.mp hc
      rw [h x hx]; omega)]
    rw [kept_cols big dα vfs fvs hlen]
    simp only [Res.bind_ok, List.foldlM_nil, Res.pure_def, List.map_map, List.length_map, Int.zero_add, Res.ok.injEq, Acc.mk.injEq, and_true, true_and]
    constructor
    · congr 1
      apply List.map_congr_left
      rintro ⟨e, t⟩ hx
      have : e = k := by
        unfold kept at hx
        obtain ⟨t', _, ht⟩ := List.mem_map.mp hx
        exact (congrArg Prod.fst ht).symm
      subst this; rfl
    · rfl

theorem fullToSbe_spec (big : α → Bool) (dα : α) (vfs : List (Str × List α)) (fvs : List (Str × List β))
    (hlen : vfs.length = fvs.length) (N : Nat) (h : FullWF vfs N) (hne : vfs ≠ []) :
    ∃ S, fullToSbe big vfs = .ok S ∧ Grouped S ((List.range N).map (kept big dα vfs fvs)) ∧
      S.ids = ((List.range N).map (kept big dα vfs fvs)).flatten.map (fun x => (x.2.2 : Int)) ∧
      S.vals = ((List.range N).map (kept big dα vfs fvs)).flatten.map (fun x => x.2.1.1.2.getD x.1 dα) ∧
      S.matmap = vfs.zipIdx.map (fun x => (x.1.1, (x.2 : Int))) := by
  obtain ⟨a, ha, h1, h2, h3, h4, _⟩ := fullToSbe_loop big dα vfs fvs hlen N h.len N (Nat.le_refl _)
  obtain ⟨c, rest, rfl⟩ := List.exists_cons_of_ne_nil hne
  have hc : c.2.length = N := h.len c (by simp)
  refine ⟨⟨(c :: rest).zipIdx.map (fun x => (x.1.1, (x.2 : Int))), some a.sizes, some a.offsets, none, a.ids, a.vals⟩, ?_, ⟨?_, ?_, rfl⟩, h2, h1, rfl⟩
  · unfold fullToSbe firstLen
    simp only [Res.bind_ok, hc]
    rw [ha]
    rfl
  · simp [h3]
  · simp [h4]

theorem pairUp_eq (vfs : List (Str × List α)) (fvs : List (Str × List β)) (h : vfs.map (·.1) = fvs.map (·.1)) :
    pairUp vfs fvs = .ok ((vfs.zip fvs).map fun t => (t.1.1, t.1.2, t.2.2)) := by
  induction vfs generalizing fvs with
  | nil => rfl
  | cons x vfs ih =>
    cases fvs with
    | nil => simp at h
    | cons y fvs =>
      obtain ⟨n, c⟩ := x
      obtain ⟨n', f⟩ := y
      simp only [List.map_cons, List.cons.injEq] at h
      obtain ⟨rfl, h⟩ := h
      simp [pairUp, ih fvs h]

theorem field_zone (big : α → Bool) (dα : α) (dβ : β) (e : Nat) (cols : List (Str × List α × List β))
    (h : ∀ c ∈ cols, e < c.2.1.length ∧ e < c.2.2.length) (r : List β) :
    cols.foldlM (fun r c => do
      let w ← rd c.2.2 (e : Int)
      let v ← rd c.2.1 (e : Int)
      if big v then Res.ok (r ++ [w]) else .ok r) r =
    .ok (r ++ (cols.filter fun c => big (c.2.1.getD e dα)).map fun c => c.2.2.getD e dβ) := by
  induction cols generalizing r with
  | nil => simp
  | cons c cols ih =>
    obtain ⟨h1, h2⟩ := h c (by simp)
    rw [List.foldlM_cons, O2M.rd_getD _ e dβ h2, O2M.rd_getD _ e dα h1]
    simp only [Res.bind_ok]
    by_cases hb : big (c.2.1.getD e dα) = true
    · rw [if_pos hb, Res.bind_ok, ih fun x hx => h x (by simp [hx])]
      rw [List.filter_cons_of_pos (by simpa using hb)]
      simp
    · rw [if_neg hb, Res.bind_ok, ih fun x hx => h x (by simp [hx])]
      rw [List.filter_cons_of_neg (by simpa using hb)]

theorem zipIdx_fst {δ : Type} (l : List δ) (k : Nat) : (l.zipIdx k).map (·.1) = l := by
  induction l generalizing k with
  | nil => rfl
  | cons x l ih => simp [ih]

theorem fullToSbeField_spec (big : α → Bool) (dα : α) (dβ : β) (vfs : List (Str × List α)) (fvs : List (Str × List β))
    (hn : vfs.map (·.1) = fvs.map (·.1)) (N : Nat) (h : FullWF vfs N) (h' : FullWF fvs N) (hne : vfs ≠ []) :
    fullToSbeField big vfs fvs =
      .ok (((List.range N).map (kept big dα vfs fvs)).flatten.map fun x => x.2.1.2.2.getD x.1 dβ) := by
  unfold fullToSbeField
  rw [pairUp_eq vfs fvs hn, Res.bind_ok]
  have hN : firstLen vfs = .ok N := by
    obtain ⟨c, rest, rfl⟩ := List.exists_cons_of_ne_nil hne
    simp [firstLen, h.len c (by simp)]
  rw [hN, Res.bind_ok]
  have key : ∀ k ≤ N, (List.range k).foldlM (fun r (e : Nat) =>
      ((vfs.zip fvs).map fun t => (t.1.1, t.1.2, t.2.2)).foldlM (fun r c => do
        let w ← rd c.2.2 (e : Int)
        let v ← rd c.2.1 (e : Int)
        if big v then Res.ok (r ++ [w]) else .ok r) r) [] =
      Res.ok (((List.range k).map (kept big dα vfs fvs)).flatten.map fun x => x.2.1.2.2.getD x.1 dβ) := by
    intro k
    induction k with
    | zero => intro _; rfl
    | succ k ih =>
      intro hk
      rw [List.range_succ, foldlM_append', ih (by omega), Res.bind_ok, List.foldlM_cons]
      rw [field_zone big dα dβ k _ (by
        intro c hc
        obtain ⟨⟨x, y⟩, hx, rfl⟩ := List.mem_map.mp hc
        have := List.of_mem_zip hx
        refine ⟨?_, ?_⟩
        · have := h.len x this.1; simp only; omega
        · have := h'.len y this.2; simp only; omega)]
      simp only [Res.bind_ok, List.foldlM_nil, Res.pure_def, List.map_append, List.flatten_append, List.map_cons, List.map_nil,
        List.flatten_cons, List.flatten_nil, List.append_nil, Res.ok.injEq]
      congr 1
      unfold kept table
      rw [List.filter_map, List.map_map, List.map_map]
      have hz := zipIdx_fst (vfs.zip fvs) 0
      have : List.filter (fun t : ((Str × List α) × (Str × List β)) => big (t.1.2.getD k dα)) (vfs.zip fvs) =
          (List.filter (fun t : ((Str × List α) × (Str × List β)) × Nat => big (t.1.1.2.getD k dα)) (vfs.zip fvs).zipIdx).map (·.1) := by
        conv => lhs; rw [← hz]
        rw [List.filter_map]; rfl
      have h2 := congrArg (List.map (fun t : ((Str × List α) × (Str × List β)) => t.2.2.getD k dβ)) this
      rw [List.map_map] at h2
      exact h2
  exact key N (Nat.le_refl _)

end Conduit.Matset
