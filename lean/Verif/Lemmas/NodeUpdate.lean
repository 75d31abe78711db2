import Verif.Lemmas.UpdateCompatible
/-
update gives the merged value (C26).
-/
namespace Conduit
open Spec Schema Node

/-! ### the situation of a destination -/

structure Ready (m : Mem) (n : Node) : Prop where
  readable : Readable m n
  sep : (places n).Pairwise NoShare
  nat : NatSize n
  clean : Clean n
  good : GoodOwners m (owned n)
  tidy : Tidy n

/-- two siblings -/
structure Pair (c c' : Node) : Prop where
  cross : Cross c c'
  own : ∀ p ∈ owned c, ∀ q ∈ owned c', p.blk ≠ q.blk
  share : ∀ a ∈ places c, ∀ b ∈ places c', NoShare a b

/-- the node's own buffer -/
structure OwnOK (m : Mem) (x : Info) (cs : List Node) : Prop where
  clean : CleanInfo x
  good : GoodOwners m (ownPtr x)
  own : ∀ p ∈ ownPtr x, ∀ c ∈ cs, ∀ q ∈ owned c, p.blk ≠ q.blk

theorem pairwise_flatMap' {α β : Type} {R : β → β → Prop} {f : α → List β} : ∀ {l : List α},
    (l.flatMap f).Pairwise R ↔ (∀ a ∈ l, (f a).Pairwise R) ∧ l.Pairwise (fun a b => ∀ x ∈ f a, ∀ y ∈ f b, R x y)
  | [] => by simp
  | a :: l => by
    simp only [List.flatMap_cons, List.pairwise_append, List.mem_cons, forall_eq_or_imp, List.pairwise_cons,
      pairwise_flatMap' (l := l)]
    constructor
    · rintro ⟨h1, ⟨h2, h3⟩, h4⟩
      exact ⟨⟨h1, h2⟩, fun b hb x hx y hy => h4 x hx y (List.mem_flatMap.2 ⟨b, hb, hy⟩), h3⟩
    · rintro ⟨⟨h1, h2⟩, h3, h4⟩
      refine ⟨h1, ⟨h2, h4⟩, fun x hx y hy => ?_⟩
      obtain ⟨b, hb, hy⟩ := List.mem_flatMap.1 hy
      exact h3 b hb x hx y hy

theorem good_app {m : Mem} {ps qs : List Ptr} : GoodOwners m (ps ++ qs) ↔
    GoodOwners m ps ∧ GoodOwners m qs ∧ (∀ p ∈ ps, ∀ q ∈ qs, p.blk ≠ q.blk) := by
  constructor
  · exact GoodOwners.app
  · rintro ⟨h1, h2, h3⟩
    refine ⟨?_, fun p hp => ?_⟩
    · rw [List.map_append, List.nodup_append]
      refine ⟨h1.1, h2.1, fun a ha b hb => ?_⟩
      obtain ⟨p, hp, rfl⟩ := List.mem_map.1 ha
      obtain ⟨q, hq, rfl⟩ := List.mem_map.1 hb
      exact h3 p hp q hq
    · rcases List.mem_append.1 hp with hp | hp
      · exact h1.2 p hp
      · exact h2.2 p hp

theorem good_flatMap {m : Mem} : ∀ {cs : List Node}, GoodOwners m (cs.flatMap owned) ↔
    (∀ c ∈ cs, GoodOwners m (owned c)) ∧ cs.Pairwise (fun c c' => ∀ p ∈ owned c, ∀ q ∈ owned c', p.blk ≠ q.blk)
  | [] => by simp [GoodOwners]
  | c :: cs => by
    simp only [List.flatMap_cons, good_app, good_flatMap (cs := cs), List.mem_cons, forall_eq_or_imp, List.pairwise_cons]
    constructor
    · rintro ⟨h1, ⟨h2, h3⟩, h4⟩
      exact ⟨⟨h1, h2⟩, fun b hb x hx y hy => h4 x hx y (List.mem_flatMap.2 ⟨b, hb, hy⟩), h3⟩
    · rintro ⟨⟨h1, h2⟩, h3, h4⟩
      refine ⟨h1, ⟨h2, h4⟩, fun x hx y hy => ?_⟩
      obtain ⟨b, hb, hy⟩ := List.mem_flatMap.1 hy
      exact h3 b hb x hx y hy

theorem ready_lst {m : Mem} {x : Info} {cs : List Node} :
    Ready m (.lst x cs) ↔ OwnOK m x cs ∧ (∀ c ∈ cs, Ready m c) ∧ cs.Pairwise Pair := by
  constructor
  · rintro ⟨h1, h2, h3, h4, h5, h6⟩
    simp only [Readable, readableL_iff, places, placesL_eq, pairwise_flatMap', NatSize, naturalL_iff, Clean, cleanL_iff,
      owned, ownedL_eq, good_app, good_flatMap, Tidy, tidyL_iff] at h1 h2 h3 h4 h5 h6
    obtain ⟨g1, ⟨g2, g3⟩, g4⟩ := h5
    refine ⟨⟨h4.1, g1, fun p hp c hc q hq => g4 p hp q (List.mem_flatMap.2 ⟨c, hc, hq⟩)⟩,
      fun c hc => ⟨h1 c hc, h2.1 c hc, h3 c hc, h4.2 c hc, g2 c hc, h6.1 c hc⟩, ?_⟩
    exact List.Pairwise.imp₂ (fun a b h1 h2 => ⟨h1.1, h1.2, h2⟩) (List.Pairwise.and h6.2 g3) h2.2
  · rintro ⟨⟨o1, o2, o3⟩, h, hp⟩
    refine ⟨?_, ?_, ?_, ?_, ?_, ?_⟩
    · simp only [Readable, readableL_iff]; exact fun c hc => (h c hc).readable
    · simp only [places, placesL_eq, pairwise_flatMap']
      exact ⟨fun c hc => (h c hc).sep, hp.imp (fun h => h.share)⟩
    · simp only [NatSize, naturalL_iff]; exact fun c hc => (h c hc).nat
    · simp only [Clean, cleanL_iff]; exact ⟨o1, fun c hc => (h c hc).clean⟩
    · simp only [owned, ownedL_eq, good_app, good_flatMap]
      refine ⟨o2, ⟨fun c hc => (h c hc).good, hp.imp (fun h => h.own)⟩, fun p hp q hq => ?_⟩
      obtain ⟨c, hc, hq⟩ := List.mem_flatMap.1 hq
      exact o3 p hp c hc q hq
    · simp only [Tidy, tidyL_iff]; exact ⟨fun c hc => (h c hc).tidy, hp.imp (fun h => h.cross)⟩

theorem ready_obj {m : Mem} {x : Info} {es : List (Str × Node)} :
    Ready m (.obj x es) ↔ Ready m (.lst x (es.map Prod.snd)) := by
  constructor
  · rintro ⟨h1, h2, h3, h4, h5, h6⟩
    exact ⟨(readableE_iff m es).1 h1, by simpa only [places, placesE_eq] using h2, (naturalE_iff es).1 h3,
      ⟨h4.1, (cleanE_iff es).1 h4.2⟩, by simpa only [owned, ownedE_eq] using h5, ⟨(tidyE_iff es).1 h6.1, h6.2⟩⟩
  · rintro ⟨h1, h2, h3, h4, h5, h6⟩
    exact ⟨(readableE_iff m es).2 h1, by simpa only [places, placesE_eq] using h2, (naturalE_iff es).2 h3,
      ⟨h4.1, (cleanE_iff es).2 h4.2⟩, by simpa only [owned, ownedE_eq] using h5, ⟨(tidyE_iff es).2 h6.1, h6.2⟩⟩

/-! ### what a step may do -/

structure Upd (m m' : Mem) (d d' : Node) : Prop where
  len : m.length ≤ m'.length
  keep : ∀ b i, b < m.length → b ∉ (owned d).map Ptr.blk → (∀ pl ∈ places d, ¬ pl.Has b i) → m'.byte b i = m.byte b i
  live : ∀ b, b < m.length → b ∉ (owned d).map Ptr.blk → Live m b → Live m' b
  own : ∀ p ∈ owned d', p ∈ owned d ∨ m.length ≤ p.blk
  blk : ∀ b ∈ blocks d', b ∈ blocks d ∨ m.length ≤ b
  plc : ∀ pl ∈ places d', pl ∈ places d ∨ ∀ b i, pl.Has b i → m.length ≤ b

theorem Upd.refl (m : Mem) (d : Node) : Upd m m d d :=
  ⟨Nat.le_refl _, fun _ _ _ _ _ => rfl, fun _ _ _ h => h, fun _ h => Or.inl h, fun _ h => Or.inl h, fun _ h => Or.inl h⟩

theorem Upd.trans {m m1 m2 : Mem} {d d1 d2 : Node} (h : Upd m m1 d d1) (h' : Upd m1 m2 d1 d2) : Upd m m2 d d2 := by
  have hl := h.len
  have nown : ∀ b, b < m.length → b ∉ (owned d).map Ptr.blk → b ∉ (owned d1).map Ptr.blk := by
    intro b hb hn hm
    obtain ⟨p, hp, rfl⟩ := List.mem_map.1 hm
    rcases h.own p hp with h1 | h1
    · exact hn (List.mem_map.2 ⟨p, h1, rfl⟩)
    · omega
  refine ⟨Nat.le_trans h.len h'.len, ?_, ?_, ?_, ?_, ?_⟩
  · intro b i hb hn hp
    rw [h'.keep b i (by omega) (nown b hb hn), h.keep b i hb hn hp]
    intro pl hpl hh
    rcases h.plc pl hpl with h1 | h1
    · exact hp pl h1 hh
    · have := h1 b i hh; omega
  · intro b hb hn hv
    exact h'.live b (by omega) (nown b hb hn) (h.live b hb hn hv)
  · intro p hp
    rcases h'.own p hp with h1 | h1
    · exact h.own p h1
    · right; omega
  · intro b hb
    rcases h'.blk b hb with h1 | h1
    · exact h.blk b h1
    · right; omega
  · intro pl hpl
    rcases h'.plc pl hpl with h1 | h1
    · exact h.plc pl h1
    · right; intro b i hh; have := h1 b i hh; omega

/-- the source of an update -/
structure SrcOK (m : Mem) (src dest : Node) : Prop where
  readable : Readable m src
  own : ∀ p ∈ owned dest, p.blk ∉ blocks src
  share : ∀ a ∈ places src, ∀ b ∈ places dest, NoShare a b

theorem Upd.same {m m' : Mem} {d d' n : Node} (h : Upd m m' d d') (hn : SrcOK m n d) : Same m m' n := by
  intro pl hpl b i hh
  have hb := has_blocks n pl hpl b i hh
  refine h.keep b i (blocks_lt n hn.readable b hb) ?_ (fun pl' hpl' => hn.share pl hpl pl' hpl' b i hh)
  intro hm
  obtain ⟨p, hp, rfl⟩ := List.mem_map.1 hm
  exact hn.own p hp hb

theorem SrcOK.after {m m' : Mem} {d d' n : Node} (h : Upd m m' d d') (hn : SrcOK m n d) : SrcOK m' n d' := by
  have hl := blocks_lt n hn.readable
  refine ⟨readable_same n (h.same hn) hn.readable, ?_, ?_⟩
  · intro p hp hb
    rcases h.own p hp with h1 | h1
    · exact hn.own p h1 hb
    · have := hl _ hb; omega
  · intro a ha b hb blk i h1 h2
    rcases h.plc b hb with h3 | h3
    · exact hn.share a ha b h3 blk i h1 h2
    · have := hl _ (has_blocks n a ha blk i h1)
      have := h3 blk i h2
      omega

theorem SrcOK.sub {m : Mem} {s s' d d' : Node} (h : SrcOK m s d) (hr : Readable m s') (hb : ∀ b ∈ blocks s', b ∈ blocks s)
    (hp : ∀ a ∈ places s', a ∈ places s) (ho : ∀ p ∈ owned d', p ∈ owned d) (hd : ∀ a ∈ places d', a ∈ places d) :
    SrcOK m s' d' :=
  ⟨hr, fun p hp hb' => h.own p (ho p hp) (hb _ hb'), fun a ha b hb => h.share a (hp a ha) b (hd b hb)⟩

theorem owned_lt {m : Mem} {ps : List Ptr} (h : GoodOwners m ps) : ∀ p ∈ ps, p.blk < m.length := by
  intro p hp
  obtain ⟨bs, hb⟩ := (h.2 p hp).2
  exact (List.getElem?_eq_some_iff.1 hb).1

/-- a sibling of an updated child -/
theorem sibling {m m' : Mem} {c c' y : Node} (hy : Ready m y) (hp : Pair c y) (h : Upd m m' c c') :
    SrcOK m y c ∧ Same m m' y ∧ Ready m' y ∧ Pair c' y := by
  have hs : SrcOK m y c := ⟨hy.readable, hp.cross.1, fun a ha b hb => noShare_symm (hp.share b hb a ha)⟩
  have hsame := h.same hs
  have hlt := owned_lt hy.good
  have hno : ∀ q ∈ owned y, q.blk ∉ (owned c).map Ptr.blk := by
    intro q hq hm
    obtain ⟨p, hpp, he⟩ := List.mem_map.1 hm
    exact hp.own p hpp q hq he
  refine ⟨hs, hsame, ⟨readable_same y hsame hy.readable, hy.sep, hy.nat, hy.clean, ⟨hy.good.1, fun q hq => ⟨(hy.good.2 q hq).1,
    h.live _ (hlt q hq) (hno q hq) (hy.good.2 q hq).2⟩⟩, hy.tidy⟩, ⟨⟨?_, ?_⟩, ?_, ?_⟩⟩
  · intro p hpp hb
    rcases h.own p hpp with h1 | h1
    · exact hp.cross.1 p h1 hb
    · have := blocks_lt y hy.readable _ hb; omega
  · intro q hq hb
    rcases h.blk _ hb with h1 | h1
    · exact hp.cross.2 q hq h1
    · have := hlt q hq; omega
  · intro p hpp q hq
    rcases h.own p hpp with h1 | h1
    · exact hp.own p h1 q hq
    · have := hlt q hq; omega
  · intro a ha b hb blk i h1 h2
    rcases h.plc a ha with h3 | h3
    · exact hp.share a h3 b hb blk i h1 h2
    · have := h3 blk i h1
      have := blocks_lt y hy.readable _ (has_blocks y b hb blk i h2)
      omega

theorem Pair.symm {c c' : Node} (h : Pair c c') : Pair c' c :=
  ⟨⟨h.cross.2, h.cross.1⟩, fun p hp q hq he => h.own q hq p hp he.symm, fun a ha b hb => noShare_symm (h.share b hb a ha)⟩

/-- replace one child of a list -/
theorem replace_child {m m' : Mem} {x : Info} {A B : List Node} {c c' : Node} (hr : Ready m (.lst x (A ++ c :: B)))
    (h : Upd m m' c c') (hc : Ready m' c') :
    Ready m' (.lst x (A ++ c' :: B)) ∧ Upd m m' (.lst x (A ++ c :: B)) (.lst x (A ++ c' :: B)) ∧
      ∀ y, y ∈ A ∨ y ∈ B → val m' y = val m y := by
  rw [ready_lst] at hr
  obtain ⟨o, hall, hpw⟩ := hr
  rw [List.pairwise_append, List.pairwise_cons] at hpw
  obtain ⟨pA, ⟨pc, pB⟩, pAB⟩ := hpw
  have sib : ∀ y, y ∈ A ∨ y ∈ B → Ready m y ∧ Pair c y := by
    intro y hy
    rcases hy with hy | hy
    · exact ⟨hall y (by simp [hy]), (pAB y hy c (by simp)).symm⟩
    · exact ⟨hall y (by simp [hy]), pc y hy⟩
  have sib' := fun y hy => sibling (sib y hy).1 (sib y hy).2 h
  have olt := owned_lt o.good
  refine ⟨?_, ?_, fun y hy => val_same y (sib' y hy).2.1⟩
  · rw [ready_lst]
    refine ⟨⟨o.clean, ⟨o.good.1, fun p hp => ⟨(o.good.2 p hp).1, h.live _ (olt p hp) ?_ (o.good.2 p hp).2⟩⟩, ?_⟩, ?_, ?_⟩
    · intro hm
      obtain ⟨q, hq, he⟩ := List.mem_map.1 hm
      exact o.own p hp c (by simp) q hq he.symm
    · intro p hp y hy q hq
      rcases List.mem_append.1 hy with hy | hy
      · exact o.own p hp y (by simp [hy]) q hq
      · rcases List.mem_cons.1 hy with rfl | hy
        · rcases h.own q hq with h1 | h1
          · exact o.own p hp c (by simp) q h1
          · have := olt p hp; omega
        · exact o.own p hp y (by simp [hy]) q hq
    · intro y hy
      rcases List.mem_append.1 hy with hy | hy
      · exact (sib' y (Or.inl hy)).2.2.1
      · rcases List.mem_cons.1 hy with rfl | hy
        · exact hc
        · exact (sib' y (Or.inr hy)).2.2.1
    · rw [List.pairwise_append, List.pairwise_cons]
      refine ⟨pA, ⟨fun y hy => (sib' y (Or.inr hy)).2.2.2, pB⟩, fun y hy z hz => ?_⟩
      rcases List.mem_cons.1 hz with rfl | hz
      · exact (sib' y (Or.inl hy)).2.2.2.symm
      · exact pAB y hy z (by simp [hz])
  · have split : ∀ z : Node, ∀ p, p ∈ owned (.lst x (A ++ z :: B)) ↔ p ∈ ownPtr x ∨ p ∈ ownedL A ∨ p ∈ owned z ∨ p ∈ ownedL B := by
      intro z p; simp [owned, ownedL_eq]
    have splitp : ∀ z : Node, ∀ p, p ∈ places (.lst x (A ++ z :: B)) ↔ p ∈ placesL A ∨ p ∈ places z ∨ p ∈ placesL B := by
      intro z p; simp [places, placesL_eq]
    have splitb : ∀ z : Node, ∀ p, p ∈ blocks (.lst x (A ++ z :: B)) ↔ p ∈ blocksL A ∨ p ∈ blocks z ∨ p ∈ blocksL B := by
      intro z p; simp [blocks, blocksL_eq]
    refine ⟨h.len, ?_, ?_, ?_, ?_, ?_⟩
    · intro b i hb hn hp
      refine h.keep b i hb ?_ (fun pl hpl => hp pl ((splitp c pl).2 (Or.inr (Or.inl hpl))))
      intro hm
      obtain ⟨p, hpp, rfl⟩ := List.mem_map.1 hm
      exact hn (List.mem_map.2 ⟨p, (split c p).2 (Or.inr (Or.inr (Or.inl hpp))), rfl⟩)
    · intro b hb hn hv
      refine h.live b hb ?_ hv
      intro hm
      obtain ⟨p, hpp, rfl⟩ := List.mem_map.1 hm
      exact hn (List.mem_map.2 ⟨p, (split c p).2 (Or.inr (Or.inr (Or.inl hpp))), rfl⟩)
    · intro p hp
      rw [split] at hp ⊢
      rcases hp with hp | hp | hp | hp
      · exact Or.inl (Or.inl hp)
      · exact Or.inl (Or.inr (Or.inl hp))
      · exact (h.own p hp).imp (fun h => Or.inr (Or.inr (Or.inl h))) id
      · exact Or.inl (Or.inr (Or.inr (Or.inr hp)))
    · intro p hp
      rw [splitb] at hp ⊢
      rcases hp with hp | hp | hp
      · exact Or.inl (Or.inl hp)
      · exact (h.blk p hp).imp (fun h => Or.inr (Or.inl h)) id
      · exact Or.inl (Or.inr (Or.inr hp))
    · intro p hp
      rw [splitp] at hp ⊢
      rcases hp with hp | hp | hp
      · exact Or.inl (Or.inl hp)
      · exact (h.plc p hp).imp (fun h => Or.inr (Or.inl h)) id
      · exact Or.inl (Or.inr (Or.inr hp))

theorem upd_obj {m m' : Mem} {x x' : Info} {es es' : List (Str × Node)}
    (h : Upd m m' (.lst x (es.map Prod.snd)) (.lst x' (es'.map Prod.snd))) : Upd m m' (.obj x es) (.obj x' es') := by
  refine ⟨h.len, ?_, ?_, ?_, ?_, ?_⟩
  · have := h.keep; simpa only [owned, ownedE_eq, places, placesE_eq] using this
  · have := h.live; simpa only [owned, ownedE_eq] using this
  · have := h.own; simpa only [owned, ownedE_eq] using this
  · have := h.blk; simpa only [blocks, blocksE_eq] using this
  · have := h.plc; simpa only [places, placesE_eq] using this

theorem replace_entry {m m' : Mem} {x : Info} {A B : List (Str × Node)} {n : Str} {c c' : Node}
    (hr : Ready m (.obj x (A ++ (n, c) :: B))) (h : Upd m m' c c') (hc : Ready m' c') :
    Ready m' (.obj x (A ++ (n, c') :: B)) ∧ Upd m m' (.obj x (A ++ (n, c) :: B)) (.obj x (A ++ (n, c') :: B)) ∧
      valE m' A = valE m A ∧ valE m' B = valE m B := by
  rw [ready_obj] at hr
  simp only [List.map_append, List.map_cons] at hr
  obtain ⟨h1, h2, h3⟩ := replace_child hr h hc
  refine ⟨by rw [ready_obj]; simpa using h1, upd_obj (by simpa using h2), ?_, ?_⟩
  · simp only [valE_eq]; apply List.map_congr_left; intro e he
    rw [h3 e.2 (Or.inl (List.mem_map.2 ⟨e, he, rfl⟩))]
  · simp only [valE_eq]; apply List.map_congr_left; intro e he
    rw [h3 e.2 (Or.inr (List.mem_map.2 ⟨e, he, rfl⟩))]

end Conduit
