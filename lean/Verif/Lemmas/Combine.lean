import Verif.Spec.Combine
import Verif.Lemmas.Extract
import Verif.Lemmas.PointMerge3
/-
The elements of the chunks, gone through, and the new topology.
-/
namespace Conduit.Comb
open Conduit.Mesh Conduit.Part Conduit.Merge
variable {F : Type}

/-! ### going through the elements -/

theorem numbered_range (name : Str) (sh : ShapeType) (n : Nat) (els : List (List Nat)) (hn : 0 < n) (h : ∀ el ∈ els, el.length = n) (k : Nat) :
    (List.range els.length).map (fun i => (⟨name, sh, k + i, ((ints els.flatten).drop (i * n)).take n, []⟩ : Entity)) =
      numbered name sh k (els.map ints) := by
  induction els generalizing k with
  | nil => rfl
  | cons el els ih =>
    have hl := h el (by simp)
    rw [List.length_cons, List.range_succ_eq_map, List.map_cons, List.map_map, List.map_cons, numbered,
      ← ih (fun e he => h e (by simp [he])) (k + 1)]
    congr 1
    · simp [ints, hl]
    · apply List.map_congr_left
      intro i _
      simp only [Function.comp]
      rw [show (i + 1) * n = n + i * n by rw [Nat.add_mul]; omega, ← List.drop_drop]
      have e1 : List.drop n (ints (el :: els).flatten) = ints els.flatten := by
        simp only [ints, List.flatten_cons, List.map_append]
        exact List.drop_left' (by simp [hl])
      rw [e1, show k + Nat.succ i = k + 1 + i by omega]

theorem flatten_const (els : List (List Nat)) (n : Nat) (h : ∀ el ∈ els, el.length = n) : els.flatten.length = els.length * n := by
  have := flatten_take_const els n h els.length (Nat.le_refl _)
  rwa [List.take_length] at this

theorem shape_known {s : Str} {n : Nat} (h : (s, n) ∈ shapeSizes) : topoShapes.contains s = true := by
  simp only [shapeSizes, List.mem_cons, Prod.mk.injEq, List.not_mem_nil, or_false] at h
  rcases h with ⟨rfl, rfl⟩ | ⟨rfl, rfl⟩ | ⟨rfl, rfl⟩ | ⟨rfl, rfl⟩ | ⟨rfl, rfl⟩ | ⟨rfl, rfl⟩ | ⟨rfl, rfl⟩ | ⟨rfl, rfl⟩ <;> decide

theorem cast_flatten {els : List (List Nat)} (h : ∀ el ∈ els, ∀ p ∈ el, Idx p) :
    (els.flatten.map fun p : Nat => (p : Int)).map int64.cast = ints els.flatten := by
  rw [List.map_map]
  apply List.map_congr_left
  intro p hp
  obtain ⟨el, he, hp⟩ := List.mem_flatten.1 hp
  exact idx_cast (h el he p hp)

/-- The elements of a topology of one shape. -/
theorem iter_fixed (A : Arith F) {topo : BNode F} {s : Str} {els : List (List Nat)} (h : Fixed topo s els)
    (ht : topo.get (chars! "type") = .ok (.str (chars! "unstructured"))) :
    ∃ sh, shapeInit s = .ok sh ∧ sh.isPolygonal = false ∧ sh.isPolyhedral = false ∧ iterElements A topo = .ok (numbered s sh 0 (els.map ints)) := by
  obtain ⟨e, n, tc, h1, h2, h3, h4, h5⟩ := h
  obtain ⟨sh, s1, s2, s3, s4, s5⟩ := shape_fixed h3
  refine ⟨sh, s1, s2, s3, ?_⟩
  unfold iterElements
  simp only [ht, h1, h2, Res.bind_ok, BNode.asString]
  rw [if_neg (fun h => h rfl), if_neg (fun h => h (shape_known h3))]
  unfold traverse
  simp only [s1, s2, s3, Res.bind_ok]
  rw [if_neg (by simp), if_neg (by simp)]
  unfold traverseFixed
  simp only [h4, Res.bind_ok, asIndices, s4, cast_flatten fun el he => (h5 el he).2]
  rw [if_neg (by omega), Int.toNat_natCast]
  have hl : (ints els.flatten).length / n = els.length := by
    rw [ints, List.length_map, flatten_const els n (fun el he => (h5 el he).1), Nat.mul_div_cancel _ s5]
  rw [hl]
  exact congrArg Res.ok (numbered_range s sh n els s5 (fun el he => (h5 el he).1) 0)

theorem runs_ok (els : List (List Nat)) : runs (ints els.flatten) (els.map fun el => (el.length : Int)) = .ok (els.map ints) := by
  induction els with
  | nil => rfl
  | cons el els ih =>
    simp only [ints, List.flatten_cons, List.map_append, List.map_cons, runs] at ih ⊢
    rw [if_neg (by omega), if_neg (by simp), Int.toNat_natCast]
    have e1 : List.drop el.length (List.map (fun p : Nat => (p : Int)) el ++ List.map (fun p : Nat => (p : Int)) els.flatten)
        = List.map (fun p : Nat => (p : Int)) els.flatten := by
      rw [List.drop_append, List.drop_eq_nil_of_le (by simp)]; simp
    have e2 : List.take el.length (List.map (fun p : Nat => (p : Int)) el ++ List.map (fun p : Nat => (p : Int)) els.flatten)
        = List.map (fun p : Nat => (p : Int)) el := by
      exact List.take_left' (by simp)
    rw [e1, e2, ih]
    rfl

/-- Polygons. -/
theorem iter_packed (A : Arith F) {topo : BNode F} {els : List (List Nat)} (h : Packed topo els)
    (ht : topo.get (chars! "type") = .ok (.str (chars! "unstructured"))) :
    iterElements A topo = .ok (numbered (chars! "polygonal") ⟨2, -1, false⟩ 0 (els.map ints)) := by
  obtain ⟨e, tc, ts, h1, h2, h3, h4, h5⟩ := h
  unfold iterElements
  simp only [ht, h1, h2, Res.bind_ok, BNode.asString]
  rw [if_neg (fun h => h rfl), if_neg (by decide)]
  unfold traverse
  simp only [show shapeInit (chars! "polygonal") = .ok ⟨2, -1, false⟩ from rfl, Res.bind_ok]
  rw [if_neg (by decide), if_pos (by decide)]
  unfold traversePolygons
  have hs : (els.map fun el => (el.length : Int)).map int64.cast = els.map fun el => (el.length : Int) := by
    rw [List.map_map]
    apply List.map_congr_left
    intro el he
    exact idx_cast (h5 el he).1
  simp only [h3, h4, Res.bind_ok, asIndices, cast_flatten fun el he => (h5 el he).2, hs, runs_ok]

/-! ### the buckets -/

/-- A new element: chunk, number there, points. -/
abbrev Item := Nat × Nat × List Nat

/-- A bucket with its elements. -/
abbrev Bkt := Str × List Item

def rep (b : Bkt) : Bucket := ⟨b.1, ints (b.2.flatMap (·.2.2)), b.2.flatMap fun x => [(x.1 : Int), (x.2.1 : Int)]⟩

def putB (s : Str) (x : Item) : List Bkt → List Bkt
  | [] => [(s, [x])]
  | b :: bs => if b.1 = s then (b.1, b.2 ++ [x]) :: bs else b :: putB s x bs

theorem toBucket_rep (s : Str) (x : Item) (bs : List Bkt) :
    toBucket s (ints x.2.2) [(x.1 : Int), (x.2.1 : Int)] (bs.map rep) = (putB s x bs).map rep := by
  induction bs with
  | nil => simp [toBucket, putB, rep]
  | cons b bs ih =>
    rw [List.map_cons, toBucket, putB]
    by_cases h : b.1 = s
    · rw [if_pos (show (rep b).shape = s from h), if_pos h, List.map_cons]
      simp [rep, ints]
    · rw [if_neg (show ¬ (rep b).shape = s from h), if_neg h, List.map_cons, ih]

/-- The point a map gives. -/
def via (m : List Nat) (el : List Nat) : List Nat := el.map fun p => m.getD p 0

theorem mapPts_ok (m el : List Nat) (h : ∀ p ∈ el, p < m.length) : mapPts (ints m) (ints el) = .ok (ints (via m el)) := by
  unfold mapPts
  induction el with
  | nil => rfl
  | cons p el ih =>
    have hp := h p (by simp)
    have : pick (ints m) (p : Int) = .ok ((m.getD p 0 : Nat) : Int) := by
      apply pick_nat
      rw [ints, List.getElem?_map, List.getD_eq_getElem?_getD, List.getElem?_eq_getElem hp]; rfl
    rw [show ints (p :: el) = (p : Int) :: ints el from rfl, List.mapM_cons, this, Res.bind_ok, ih fun p hp => h p (by simp [hp])]
    rfl

/-- The items of a chunk. -/
def itemsOf (m : List Nat) (i : Nat) : Nat → List (List Nat) → List Item
  | _, [] => []
  | j, el :: els => (i, j, via m el) :: itemsOf m i (j + 1) els

theorem addBuckets_ok (m : List Nat) (i : Nat) (s : Str) (sh : ShapeType) (els : List (List Nat)) (h : ∀ el ∈ els, ∀ p ∈ el, p < m.length)
    (j : Nat) (bs : List Bkt) :
    addBuckets (ints m) i (numbered s sh j (els.map ints)) (bs.map rep) = .ok (((itemsOf m i j els).foldl (fun bs x => putB s x bs) bs).map rep) := by
  induction els generalizing j bs with
  | nil => rfl
  | cons el els ih =>
    rw [List.map_cons, numbered, addBuckets, mapPts_ok m el (h el (by simp)), Res.bind_ok, itemsOf, List.foldl_cons,
      ← ih (fun e he => h e (by simp [he]))]
    congr 1
    exact toBucket_rep s (i, j, via m el) bs

/-- What is true of the buckets once the items of `done` are in them. -/
structure BInv (P : Str → Item → Prop) (done : List Item) (bs : List Bkt) : Prop where
  perm : (bs.flatMap (·.2)).Perm done
  nodup : (bs.map (·.1)).Nodup
  good : ∀ b ∈ bs, ∀ x ∈ b.2, P b.1 x
  full : ∀ b ∈ bs, b.2 ≠ []

theorem putB_names (s : Str) (x : Item) (bs : List Bkt) : ∀ b ∈ putB s x bs, b.1 = s ∨ b.1 ∈ bs.map (·.1) := by
  induction bs with
  | nil => intro b hb; rw [putB, List.mem_singleton] at hb; subst hb; exact .inl rfl
  | cons c bs ih =>
    intro b hb
    rw [putB] at hb
    split at hb
    · rcases List.mem_cons.1 hb with rfl | hb
      · exact .inr (by simp)
      · exact .inr (by simp; exact .inr ⟨_, hb⟩)
    · rcases List.mem_cons.1 hb with rfl | hb
      · exact .inr (by simp)
      · rcases ih b hb with h | h
        · exact .inl h
        · exact .inr (by rw [List.map_cons]; exact List.mem_cons_of_mem _ h)

theorem putB_inv {P : Str → Item → Prop} {done : List Item} {bs : List Bkt} (h : BInv P done bs) (s : Str) (x : Item) (hx : P s x) :
    BInv P (done ++ [x]) (putB s x bs) := by
  induction bs generalizing done with
  | nil =>
    refine ⟨?_, by simp [putB], ?_, by simp [putB]⟩
    · have := h.perm; simp at this; subst this; simp [putB]
    · intro b hb y hy
      simp [putB] at hb; subst hb; simp at hy; subst hy; exact hx
  | cons b bs ih =>
    obtain ⟨h1, h2, h3, h4⟩ := h
    rw [List.map_cons, List.nodup_cons] at h2
    rw [putB]
    split
    case isTrue he =>
      refine ⟨?_, by rw [List.map_cons, List.nodup_cons]; exact h2, ?_, ?_⟩
      · rw [List.flatMap_cons] at h1 ⊢
        refine List.Perm.trans ?_ (h1.append_right [x])
        rw [List.append_assoc, List.append_assoc]
        exact (List.perm_append_comm).append_left _
      · intro c hc y hy
        rcases List.mem_cons.1 hc with rfl | hc
        · rcases List.mem_append.1 hy with hy | hy
          · exact h3 b (by simp) y hy
          · rw [List.mem_singleton] at hy; subst hy; rw [he]; exact hx
        · exact h3 c (by simp [hc]) y hy
      · intro c hc
        rcases List.mem_cons.1 hc with rfl | hc
        · simp
        · exact h4 c (by simp [hc])
    case isFalse he =>
      obtain ⟨i1, i2, i3, i4⟩ := ih (done := bs.flatMap (·.2)) ⟨List.Perm.refl _, h2.2, fun c hc => h3 c (by simp [hc]),
        fun c hc => h4 c (by simp [hc])⟩
      refine ⟨?_, ?_, ?_, ?_⟩
      · rw [List.flatMap_cons] at h1 ⊢
        refine (i1.append_left _).trans ?_
        rw [← List.append_assoc]
        exact h1.append_right [x]
      · rw [List.map_cons, List.nodup_cons]
        refine ⟨?_, i2⟩
        intro hm
        obtain ⟨c, hc, hcb⟩ := List.mem_map.1 hm
        rcases putB_names s x bs c hc with h | h
        · exact he (by rw [← hcb, h])
        · exact h2.1 (by rw [← hcb]; exact h)
      · intro c hc y hy
        rcases List.mem_cons.1 hc with rfl | hc
        · exact h3 c (by simp) y hy
        · exact i3 c hc y hy
      · intro c hc
        rcases List.mem_cons.1 hc with rfl | hc
        · exact h4 c (by simp)
        · exact i4 c hc

theorem foldB_inv {P : Str → Item → Prop} (s : Str) (xs : List Item) (hx : ∀ x ∈ xs, P s x) {done : List Item} {bs : List Bkt}
    (h : BInv P done bs) : BInv P (done ++ xs) (xs.foldl (fun bs x => putB s x bs) bs) := by
  induction xs generalizing done bs with
  | nil => simpa using h
  | cons x xs ih =>
    have := ih (fun y hy => hx y (by simp [hy])) (putB_inv h s x (hx x (by simp)))
    rwa [List.append_assoc] at this

/-! ### all chunks -/

/-- What a chunk is to the loops over the topologies: read with these names. -/
def Chunk.Read (A : Arith F) (c : Chunk F) (sh : ShapeType) : Prop :=
  c.topo.hasChild (chars! "elements") = true ∧ iterElements A c.topo = .ok (numbered c.shape sh 0 (c.els.map ints))

/-- The items of all chunks, the first with number `i`. -/
def items : Nat → List (Chunk F × List Nat) → List Item
  | _, [] => []
  | i, (c, m) :: l => itemsOf m i 0 c.els ++ items (i + 1) l

theorem allBuckets_ok (A : Arith F) (P : Str → Item → Prop) : ∀ (l : List (Chunk F × List Nat)) (i : Nat) (done : List Item) (bs : List Bkt),
    (∀ cm ∈ l, (∃ sh, cm.1.Read A sh) ∧ ∀ el ∈ cm.1.els, ∀ p ∈ el, p < cm.2.length) →
    (∀ (k : Nat) (c : Chunk F) (m : List Nat), l[k]? = some (c, m) → ∀ x ∈ itemsOf m (i + k) 0 c.els, P c.shape x) →
    BInv P done bs →
    ∃ bs', allBuckets A i (l.map fun cm => (cm.1.topo, ints cm.2)) (bs.map rep) = .ok (bs'.map rep) ∧ BInv P (done ++ items i l) bs'
  | [], i, done, bs, _, _, h => ⟨bs, rfl, by simpa [items] using h⟩
  | (c, m) :: l, i, done, bs, h1, h2, h => by
    obtain ⟨⟨sh, r1, r2⟩, r3⟩ := h1 (c, m) (by simp)
    have hb := foldB_inv c.shape (itemsOf m i 0 c.els) (fun x hx => h2 0 c m rfl x (by simpa using hx)) h
    obtain ⟨bs', e1, e2⟩ := allBuckets_ok A P l (i + 1) _ _ (fun cm hcm => h1 cm (by simp [hcm]))
      (fun k c' m' hk x hx => h2 (k + 1) c' m' (by simpa using hk) x (by rwa [show i + (k + 1) = i + 1 + k by omega])) hb
    refine ⟨bs', ?_, by rw [items, ← List.append_assoc]; exact e2⟩
    rw [List.map_cons, allBuckets, if_pos r1, r2, Res.bind_ok, addBuckets_ok m i c.shape sh c.els r3 0 bs, Res.bind_ok]
    exact e1

/-- Where the items come from. -/
theorem itemsOf_mem (m : List Nat) (i : Nat) (els : List (List Nat)) (j : Nat) (x : Item) :
    x ∈ itemsOf m i j els ↔ ∃ (k : Nat) (el : List Nat), els[k]? = some el ∧ x = (i, j + k, via m el) := by
  induction els generalizing j with
  | nil => simp [itemsOf]
  | cons el els ih =>
    rw [itemsOf, List.mem_cons, ih]
    constructor
    · rintro (rfl | ⟨k, e, hk, rfl⟩)
      · exact ⟨0, el, rfl, rfl⟩
      · exact ⟨k + 1, e, by simpa using hk, by rw [show j + 1 + k = j + (k + 1) by omega]⟩
    · rintro ⟨k, e, hk, rfl⟩
      cases k with
      | zero => simp at hk; subst hk; exact .inl rfl
      | succ k => exact .inr ⟨k, e, by simpa using hk, by rw [show j + 1 + k = j + (k + 1) by omega]⟩

theorem items_mem (l : List (Chunk F × List Nat)) (i : Nat) (x : Item) :
    x ∈ items i l ↔ ∃ (k : Nat) (c : Chunk F) (m : List Nat) (j : Nat) (el : List Nat), l[k]? = some (c, m) ∧ c.els[j]? = some el ∧
      x = (i + k, j, via m el) := by
  induction l generalizing i with
  | nil => simp [items]
  | cons cm l ih =>
    obtain ⟨c, m⟩ := cm
    rw [items, List.mem_append, itemsOf_mem, ih]
    constructor
    · rintro (⟨k, el, hk, rfl⟩ | ⟨k, c', m', j, el, h1, h2, rfl⟩)
      · exact ⟨0, c, m, k, el, rfl, hk, by simp⟩
      · exact ⟨k + 1, c', m', j, el, by simpa using h1, h2, by rw [show i + 1 + k = i + (k + 1) by omega]⟩
    · rintro ⟨k, c', m', j, el, h1, h2, rfl⟩
      cases k with
      | zero =>
        simp at h1
        obtain ⟨rfl, rfl⟩ := h1
        exact .inl ⟨j, el, h2, by simp⟩
      | succ k => exact .inr ⟨k, c', m', j, el, by simpa using h1, h2, by rw [show i + 1 + k = i + (k + 1) by omega]⟩

theorem itemsOf_nodup (m : List Nat) (i : Nat) (els : List (List Nat)) (j : Nat) : ((itemsOf m i j els).map fun x => (x.1, x.2.1)).Nodup := by
  induction els generalizing j with
  | nil => simp [itemsOf]
  | cons el els ih =>
    rw [itemsOf, List.map_cons, List.nodup_cons]
    refine ⟨?_, ih (j + 1)⟩
    intro h
    obtain ⟨x, hx, hxe⟩ := List.mem_map.1 h
    obtain ⟨k, el', _, rfl⟩ := (itemsOf_mem m i els (j + 1) x).1 hx
    simp at hxe
    omega

theorem items_nodup (l : List (Chunk F × List Nat)) (i : Nat) : ((items i l).map fun x => (x.1, x.2.1)).Nodup := by
  induction l generalizing i with
  | nil => simp [items]
  | cons cm l ih =>
    obtain ⟨c, m⟩ := cm
    rw [items, List.map_append, List.nodup_append]
    refine ⟨itemsOf_nodup m i c.els 0, ih (i + 1), ?_⟩
    intro a ha b hb hab
    obtain ⟨x, hx, rfl⟩ := List.mem_map.1 ha
    obtain ⟨y, hy, rfl⟩ := List.mem_map.1 hb
    obtain ⟨k, el, _, rfl⟩ := (itemsOf_mem m i c.els 0 x).1 hx
    obtain ⟨k', c', m', j, el', _, _, rfl⟩ := (items_mem l (i + 1) y).1 hy
    simp at hab
    omega

/-- The chunks with their maps. -/
structure Mapped (cs : List (Chunk F)) (maps : List (List Nat)) : Prop where
  sets : maps.length = cs.length
  points : ∀ (i : Nat) (c : Chunk F) (m : List Nat), cs[i]? = some c → maps[i]? = some m → m.length = c.pts.length

theorem zip_get {α β : Type} {l : List α} {m : List β} {i : Nat} {a : α} {b : β} : (l.zip m)[i]? = some (a, b) ↔ l[i]? = some a ∧ m[i]? = some b := by
  rw [List.getElem?_zip_eq_some]

/-- A list of items that is a rearrangement of all of them has what is wanted. -/
theorem kept_of {cs : List (Chunk F)} {maps : List (List Nat)} (hm : Mapped cs maps)
    (hp : ∀ c ∈ cs, ∀ el ∈ c.els, ∀ p ∈ el, p < c.pts.length) (its : List (Str × Item))
    (h : (its.map (·.2)).Perm (items 0 (cs.zip maps))) :
    Kept cs maps (its.map fun x => (x.1, x.2.2.2)) (its.map fun x => (x.2.1, x.2.2.1)) := by
  have hmap : (its.map fun x => (x.2.1, x.2.2.1)).Perm ((items 0 (cs.zip maps)).map fun x => (x.1, x.2.1)) := by
    have := h.map fun x : Item => (x.1, x.2.1)
    rwa [List.map_map] at this
  have hmaps : ∀ (i : Nat) (c : Chunk F), cs[i]? = some c → ∃ m, maps[i]? = some m := by
    intro i c hc
    have : i < maps.length := by rw [hm.sets]; exact (List.getElem?_eq_some_iff.1 hc).1
    exact ⟨_, List.getElem?_eq_getElem this⟩
  refine ⟨by simp, hmap.nodup_iff.2 (items_nodup _ 0), ?_, ?_⟩
  · intro i j
    rw [hmap.mem_iff, List.mem_map]
    constructor
    · rintro ⟨x, hx, hxe⟩
      obtain ⟨k, c, m, j', el, h1, h2, rfl⟩ := (items_mem _ 0 x).1 hx
      simp at hxe
      obtain ⟨rfl, rfl⟩ := hxe
      exact ⟨c, (zip_get.1 h1).1, (List.getElem?_eq_some_iff.1 h2).1⟩
    · rintro ⟨c, hc, hj⟩
      obtain ⟨m, hmi⟩ := hmaps i c hc
      exact ⟨(i, j, via m (c.els[j])), (items_mem _ 0 _).2 ⟨i, c, m, j, _, zip_get.2 ⟨hc, hmi⟩, List.getElem?_eq_getElem hj, by simp⟩, rfl⟩
  · intro k i j c el hk hc hel
    rw [List.getElem?_map, Option.map_eq_some_iff] at hk
    obtain ⟨x, hx, hxe⟩ := hk
    have hx' : x.2 ∈ items 0 (cs.zip maps) := h.mem_iff.1 (List.mem_map_of_mem (List.mem_of_getElem? hx))
    obtain ⟨k', c', m, j', el', h1, h2, h3⟩ := (items_mem _ 0 _).1 hx'
    rw [h3] at hxe
    simp at hxe
    obtain ⟨rfl, rfl⟩ := hxe
    obtain ⟨g1, g2⟩ := zip_get.1 h1
    rw [hc] at g1; cases g1
    rw [hel] at h2; cases h2
    refine ⟨x.1, via m el, by rw [List.getElem?_map, hx, Option.map_some, h3], by simp [via], ?_⟩
    intro n p hn
    have hlt : p < m.length := by
      rw [hm.points _ _ _ hc g2]
      exact hp c (List.mem_of_getElem? hc) el (List.mem_of_getElem? hel) p (List.mem_of_getElem? hn)
    refine ⟨m.getD p 0, by rw [via, List.getElem?_map, hn]; rfl, m, g2, ?_⟩
    rw [List.getD_eq_getElem?_getD, List.getElem?_eq_getElem hlt]; rfl

end Conduit.Comb
