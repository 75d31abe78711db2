import Verif.Lemmas.CommSchema
import Verif.Props.Relay
import Verif.Props.PlainMsg
/-
C105: nodes sent and received with `communicate_using_schema`.
-/
namespace Conduit
open Spec Schema Node Relay

/-- the receives that were added, in order: the node, the rank and the tag -/
def receives (ops : List CommOp) : List (Node × Nat × Int) :=
  ops.filterMap fun | .recv n s t => some (n, s, t) | .send _ _ _ => none

/-- the nodes to be sent to rank `q` with a tag, in the order they were added -/
def sendsTo (q : Nat) (tag : Int) (ops : List CommOp) : List Node :=
  ops.filterMap fun | .send n d t => if d = q ∧ t = tag then some n else none | .recv _ _ _ => none

theorem receives_eq : ∀ ops, receives ops = recvList ops
  | [] => rfl
  | .send _ _ _ :: ops => by rw [recvList, ← receives_eq ops]; rfl
  | .recv _ _ _ :: ops => by rw [recvList, ← receives_eq ops]; rfl

theorem sendsTo_eq (q : Nat) (tag : Int) : ∀ ops, sendsTo q tag ops = sendList q tag ops
  | [] => rfl
  | .recv _ _ _ :: ops => by rw [sendList, ← sendsTo_eq q tag ops]; rfl
  | .send n d t :: ops => by
    rw [sendList, ← sendsTo_eq q tag ops]
    unfold sendsTo
    by_cases h : d = q ∧ t = tag
    · rw [if_pos h, List.filterMap_cons_some (b := n) (by simp [h])]
    · rw [if_neg h, List.filterMap_cons_none (by simp only [if_neg h])]

/-- The `i`-th receive of rank `q`, with operations `ops`, is of the node `n` of rank `s`: if it is the `k`-th receive from this rank with this tag, then `n` is
    the `k`-th node that this rank sends to `q` with this tag. -/
def Partner (ranks : List CommRank) (q : Nat) (ops : List CommOp) (i : Nat) (src : Nat) (tag : Int) (s : CommRank) (n : Node) : Prop :=
  ranks[src]? = some s ∧ (sendsTo q tag s.ops)[((receives ops).take i).countP fun r => decide (r.2 = (src, tag))]? = some n

/-- What a program has to see to before all ranks call `execute`. -/
structure CommOK (big : Bool) (ub : Int) (ranks : List CommRank) : Prop where
  /-- tags are within MPI's limit -/
  sendTags : ∀ r ∈ ranks, ∀ n d t, CommOp.send n d t ∈ r.ops → 0 ≤ t ∧ t ≤ ub
  recvTags : ∀ r ∈ ranks, ∀ x ∈ receives r.ops, 0 ≤ x.2.2 ∧ x.2.2 ≤ ub
  /-- nodes to be sent as in C46 -/
  sends : ∀ r ∈ ranks, ∀ n d t, CommOp.send n d t ∈ r.ops → Sendable r.base big r.mem n
  /-- nodes to be received into are apart in memory, as the children of a list are -/
  dests : ∀ r ∈ ranks, DestOK r.mem (.lst {} ((receives r.ops).map Prod.fst))
  /-- each receive has its send, of a tree that fits the node (C26) -/
  partners : ∀ q r i d src tag, ranks[q]? = some r → (receives r.ops)[i]? = some (d, src, tag) →
    ∃ s n, Partner ranks q r.ops i src tag s n ∧ Fits (named big (val s.mem n)) (val r.mem d)

/-- C105: if all ranks call `execute` it ends, and each node that was given to `add_irecv` has the merge of the value its partner had before into what it had before
    (as `update`); receives from one rank with one tag get the nodes in the order in which that rank added them.  A node may be sent and
    received into at once: what is sent is its value before.  No other memory is changed. -/
theorem C105_communicate (big : Bool) (ub : Int) (ranks : List CommRank) (h : CommOK big ub ranks) :
    ∃ out, communicate big ub ranks = .ok out ∧ out.length = ranks.length ∧
      ∀ q r m2 ns, ranks[q]? = some r → out[q]? = some (m2, ns) →
        ns.length = (receives r.ops).length ∧
        (∀ i d src tag s n d2, (receives r.ops)[i]? = some (d, src, tag) → Partner ranks q r.ops i src tag s n → ns[i]? = some d2 →
          Fits (named big (val s.mem n)) (val r.mem d) →
          val m2 d2 = merge (named big (val s.mem n)) (val r.mem d) ∧ DestOK m2 d2) ∧
        (∀ b i, b < r.mem.length → (∀ x ∈ receives r.ops, b ∉ (owned x.1).map Ptr.blk ∧ ∀ pl ∈ places x.1, ¬ pl.Has b i) →
          m2.byte b i = r.mem.byte b i) := by
  have hcarry : ∀ r ∈ ranks, ∀ n d t, CommOp.send n d t ∈ r.ops →
      ∃ msg, sendUsingSchema r.base big n r.mem = .ok msg ∧ Carries msg (named big (val r.mem n)) := by
    intro r hr n d t hop
    have hs := h.sends r hr n d t hop
    obtain ⟨msg, h1, h2⟩ := send_recv hs.readable hs.names hs.bytes (sent_alone hs) hs.size
    exact ⟨msg, h1, distinct_named big _ (distinct_val r.mem n hs.names), h2⟩
  obtain ⟨net, n1, n2⟩ := commNet_ok ranks (fun r hr n d t hop => ⟨h.sendTags r hr n d t hop, (hcarry r hr n d t hop).imp fun _ hh => hh.1⟩)
  -- the message of a partner
  have hmsg : ∀ q ops i src tag s n, Partner ranks q ops i src tag s n →
      ∃ x, ((net.getD src []).filter (wanted q tag))[before (recvList ops) i (src, tag)]? = some x ∧ Carries x.bytes (named big (val s.mem n)) := by
    intro q ops i src tag s n ⟨p1, p2⟩
    rw [sendsTo_eq, receives_eq] at p2
    have hf := n2 src s p1 q tag
    obtain ⟨hlt, hge⟩ := List.getElem?_eq_some_iff.1 p2
    have hlt' := hlt
    rw [hf.length_eq] at hlt'
    have hx := (List.forall₂_iff_get.1 hf).2 _ hlt hlt'
    rw [List.get_eq_getElem, List.get_eq_getElem, hge] at hx
    refine ⟨_, List.getElem?_eq_getElem hlt', ?_⟩
    have hmem : n ∈ sendsTo q tag s.ops := by rw [sendsTo_eq, ← hge]; exact List.getElem_mem hlt
    obtain ⟨op, o1, o2⟩ := List.mem_filterMap.1 hmem
    cases op with
    | recv => simp at o2
    | send n' d t =>
      simp only [Option.ite_none_right_eq_some, Option.some.injEq] at o2
      obtain ⟨_, rfl⟩ := o2
      obtain ⟨msg, e1, e2⟩ := hcarry s (List.mem_of_getElem? p1) _ d t o1
      rw [e1] at hx
      cases hx
      exact e2
  -- one rank
  have hrank : ∀ q r, ranks[q]? = some r → ∃ l m2 ns, commRecvs ub q r.ops net = .ok l ∧ commBuild l r.mem = .ok (m2, ns) ∧
      ns.length = (receives r.ops).length ∧
      (∀ i d src tag s n d2, (receives r.ops)[i]? = some (d, src, tag) → Partner ranks q r.ops i src tag s n → ns[i]? = some d2 →
        Fits (named big (val s.mem n)) (val r.mem d) →
        val m2 d2 = merge (named big (val s.mem n)) (val r.mem d) ∧ DestOK m2 d2) ∧
      (∀ b i, b < r.mem.length → (∀ x ∈ receives r.ops, b ∉ (owned x.1).map Ptr.blk ∧ ∀ pl ∈ places x.1, ¬ pl.Has b i) →
        m2.byte b i = r.mem.byte b i) := by
    intro q r hq
    have hr := List.mem_of_getElem? hq
    obtain ⟨l, l1, l2, l3⟩ := commRecvs_ok (ub := ub) (me := q) r.ops net (by rw [← receives_eq]; exact h.recvTags r hr) (fun i d s t hi => by
      rw [← receives_eq] at hi
      obtain ⟨s', n', hp, _⟩ := h.partners q r i d s t hq hi
      exact (hmsg q r.ops i s t s' n' hp).imp fun _ hh => hh.1)
    have hd := h.dests r hr
    rw [receives_eq] at hd
    have hfst : l.map Prod.fst = (recvList r.ops).map Prod.fst := by
      apply List.ext_getElem? 
      intro i
      rw [List.getElem?_map, List.getElem?_map]
      cases hi : (recvList r.ops)[i]? with
      | none => rw [List.getElem?_eq_none (by rw [l2]; exact List.getElem?_eq_none_iff.1 hi)]; rfl
      | some x =>
        obtain ⟨d, s, t⟩ := x
        obtain ⟨y, _, e⟩ := l3 i d s t hi
        rw [e]; rfl
    rw [← hfst] at hd
    have hready : Ready r.mem (.lst {} (l.map Prod.fst)) := ⟨hd.readable, hd.separate, hd.size, hd.clean, hd.owners, hd.tidy⟩
    obtain ⟨hown, hall, hpair⟩ := ready_lst.1 hready
    have hnames := distinct_children hd.names
    have hl : ∀ x ∈ l, ∃ i d s t s' n', (recvList r.ops)[i]? = some (d, s, t) ∧ l[i]? = some x ∧ x.1 = d ∧ Partner ranks q r.ops i s t s' n' ∧
        Carries x.2 (named big (val s'.mem n')) ∧ Fits (named big (val s'.mem n')) (val r.mem d) := by
      intro x hx
      obtain ⟨i, hi⟩ := List.mem_iff_getElem?.1 hx
      obtain ⟨⟨d, s, t⟩, hrec⟩ : ∃ z, (recvList r.ops)[i]? = some z := by
        obtain ⟨hlt, _⟩ := List.getElem?_eq_some_iff.1 hi
        exact ⟨_, List.getElem?_eq_getElem (by omega)⟩
      obtain ⟨s', n', hp, hfit⟩ := h.partners q r i d s t hq (by rw [receives_eq]; exact hrec)
      obtain ⟨y, y1, y2⟩ := hmsg q r.ops i s t s' n' hp
      obtain ⟨z, z1, z2⟩ := l3 i d s t hrec
      rw [y1] at z1
      cases z1
      rw [hi] at z2
      cases z2
      exact ⟨i, d, s, t, s', n', hrec, hi, rfl, hp, y2, hfit⟩
    obtain ⟨m2, ns, b1, b2, b3⟩ := commBuild_ok l r.mem (fun x hx => ⟨hall _ (List.mem_map.2 ⟨x, hx, rfl⟩), hnames _ (List.mem_map.2 ⟨x, hx, rfl⟩)⟩)
      (hpair.imp fun hp b i => pair_foot hp b i) (fun x hx => by
        obtain ⟨i, d, s, t, s', n', _, _, e, _, e1, e2⟩ := hl x hx
        exact ⟨_, e1, by rw [e]; exact e2⟩)
    refine ⟨l, m2, ns, l1, b1, by rw [← b3.length_eq, l2, receives_eq], ?_, ?_⟩
    · intro i d src tag s n d2 hi hp hd2 hfit
      rw [receives_eq] at hi
      obtain ⟨y, y1, y2⟩ := hmsg q r.ops i src tag s n hp
      obtain ⟨z, z1, z2⟩ := l3 i d src tag hi
      rw [y1] at z1
      cases z1
      obtain ⟨g1, g2⟩ := List.getElem?_eq_some_iff.1 z2
      obtain ⟨g3, g4⟩ := List.getElem?_eq_some_iff.1 hd2
      have := (List.forall₂_iff_get.1 b3).2 i g1 g3
      rw [List.get_eq_getElem, List.get_eq_getElem, g2, g4] at this
      have hv := this.2 _ y2 hfit
      refine ⟨hv, this.1.readable, ?_, this.1.sep, this.1.nat, this.1.good, this.1.clean, this.1.tidy⟩
      rw [hv]
      exact distinct_merge _ _ y2.names (hnames d (List.mem_map.2 ⟨_, List.mem_of_getElem? z2, rfl⟩))
    · intro b i hb hno
      refine b2.keep b i hb (fun z hz => ?_)
      obtain ⟨x, hx, rfl⟩ := List.mem_map.1 hz
      refine ⟨?_, not_foot_new b i⟩
      have : x.1 ∈ (recvList r.ops).map Prod.fst := by rw [← hfst]; exact List.mem_map.2 ⟨x, hx, rfl⟩
      obtain ⟨w, w1, w2⟩ := List.mem_map.1 this
      have hw := hno w (by rw [receives_eq]; exact w1)
      rw [w2] at hw
      rintro (hf | ⟨pl, f1, f2⟩)
      · exact hw.1 hf
      · exact hw.2 pl f1 f2
  obtain ⟨out, o1, o2, o3⟩ := commAll_ok (ub := ub) (net := net) ranks 0 (fun q r hq => by
    obtain ⟨l, m2, ns, e1, e2, _⟩ := hrank q r hq
    exact ⟨(m2, ns), l, by rw [Nat.zero_add]; exact e1, e2⟩)
  refine ⟨out, ?_, o2, fun q r m2 ns hq hout => ?_⟩
  · unfold communicate
    rw [n1, bind_ok, o1]
  · obtain ⟨l, e1, e2⟩ := o3 q r (m2, ns) hq hout
    rw [Nat.zero_add] at e1
    obtain ⟨l', m2', ns', f1, f2, f3⟩ := hrank q r hq
    rw [e1] at f1
    cases f1
    rw [e2] at f2
    cases f2
    exact f3

/-- C105: a tree without childless objects and lists that is received into a new node is the tree that was sent. -/
theorem C105_new_nodes (big : Bool) (ub : Int) (ranks : List CommRank) (h : CommOK big ub ranks) (out : List (Mem × List Node))
    (ho : communicate big ub ranks = .ok out) {q i src : Nat} {r s : CommRank} {tag : Int} {n : Node} (hq : ranks[q]? = some r)
    (hi : (receives r.ops)[i]? = some (new, src, tag)) (hp : Partner ranks q r.ops i src tag s n) (hs : Sendable s.base big s.mem n) (hf : Full (val s.mem n)) :
    ∃ m2 ns d2, out[q]? = some (m2, ns) ∧ ns[i]? = some d2 ∧ val m2 d2 = named big (val s.mem n) ∧ numbers big (val m2 d2) = numbers big (val s.mem n) := by
  obtain ⟨out', e1, e2, e3⟩ := C105_communicate big ub ranks h
  rw [ho] at e1
  cases e1
  obtain ⟨hlt, _⟩ := List.getElem?_eq_some_iff.1 hq
  obtain ⟨⟨m2, ns⟩, hout⟩ : ∃ u, out[q]? = some u := ⟨_, List.getElem?_eq_getElem (by omega)⟩
  obtain ⟨f1, f2, _⟩ := e3 q r m2 ns hq hout
  obtain ⟨hlt2, _⟩ := List.getElem?_eq_some_iff.1 hi
  obtain ⟨d2, hn⟩ : ∃ u, ns[i]? = some u := ⟨_, List.getElem?_eq_getElem (by omega)⟩
  obtain ⟨v1, _⟩ := f2 i new src tag s n d2 hi hp hn (by rw [val_new]; exact fits_empty _)
  have hv : val m2 d2 = named big (val s.mem n) := by
    rw [v1, val_new, merge_empty _ (full_named big _ hf) (proper_named big s.mem n) (distinct_named big _ (distinct_val s.mem n hs.names))]
  exact ⟨m2, ns, d2, hout, hn, hv, by rw [hv, numbers_named]⟩

/-! ### a case -/

/-- two ranks exchange the data of one node; rank 1 also gets a second node with the same tag -/
def swapNode : Node := .leaf ⟨some ⟨0, 0⟩, true⟩ (DataType.ofId .uint8 2)
def swapExtra : Node := .leaf ⟨some ⟨1, 0⟩, true⟩ (DataType.ofId .uint8 1)
def swapRanks : List CommRank :=
  [⟨conBase, [.send swapNode 1 7, .send swapExtra 1 7, .recv swapNode 1 7], [some [1, 2], some [9]]⟩,
    ⟨conBase, [.recv swapNode 0 7, .recv new 0 7, .send swapNode 0 7], [some [3, 4]]⟩]

theorem swap_ok : CommOK false 100 swapRanks := by
  have h0 : Sendable conBase false [some [1, 2], some [9]] swapNode := by
    refine ⟨?_, ?_, ?_, fun _ _ => by decide +kernel, by decide +kernel⟩
    · simp only [swapNode, Readable]; decide
    · simp only [swapNode, schema, NamesOK]
    · simp only [swapNode, schema, ByteNames]
  have h1 : Sendable conBase false [some [1, 2], some [9]] swapExtra := by
    refine ⟨?_, ?_, ?_, fun _ _ => by decide +kernel, by decide +kernel⟩
    · simp only [swapExtra, Readable]; decide
    · simp only [swapExtra, schema, NamesOK]
    · simp only [swapExtra, schema, ByteNames]
  have h2 : Sendable conBase false [some [3, 4]] swapNode := by
    refine ⟨?_, ?_, ?_, fun _ _ => by decide +kernel, by decide +kernel⟩
    · simp only [swapNode, Readable]; decide
    · simp only [swapNode, schema, NamesOK]
    · simp only [swapNode, schema, ByteNames]
  have hr0 : receives [.send swapNode 1 7, .send swapExtra 1 7, .recv swapNode 1 7] = [(swapNode, 1, 7)] := rfl
  have hr1 : receives [.recv swapNode 0 7, .recv new 0 7, .send swapNode 0 7] = [(swapNode, 0, 7), (new, 0, 7)] := rfl
  refine ⟨?_, ?_, ?_, ?_, ?_⟩
  · intro r hr n d t hop
    simp only [swapRanks, List.mem_cons, List.not_mem_nil, or_false] at hr
    rcases hr with rfl | rfl
    · simp at hop; omega
    · simp at hop; omega
  · intro r hr x hx
    simp only [swapRanks, List.mem_cons, List.not_mem_nil, or_false] at hr
    rcases hr with rfl | rfl
    · simp [hr0] at hx; subst hx; decide
    · simp [hr1] at hx; rcases hx with rfl | rfl <;> decide
  · intro r hr n d t hop
    simp only [swapRanks, List.mem_cons, List.not_mem_nil, or_false] at hr
    rcases hr with rfl | rfl
    · simp at hop
      rcases hop with ⟨rfl, _⟩ | ⟨rfl, _⟩
      · exact h0
      · exact h1
    · simp at hop
      obtain ⟨rfl, _⟩ := hop
      exact h2
  · intro r hr
    simp only [swapRanks, List.mem_cons, List.not_mem_nil, or_false] at hr
    rcases hr with rfl | rfl
    · simp only [hr0, List.map_cons, List.map_nil]
      refine ⟨?_, ?_, ?_, ?_, ⟨by decide, ?_⟩, ?_, ?_⟩
      · simp only [swapNode, Readable, ReadableL]; decide
      · simp [swapNode, val, valL, DistinctV, DistinctVL, DataType.ofId]
      · simp only [swapNode, places, placesL, leafPlaces, DataType.ofId, TypeId.bytes]
        simp [List.range_succ, NoShare, Place.Has]
        intros; omega
      · simp [swapNode, NatSize, NatSizeL, DataType.ofId, TypeId.bytes]
      · intro p hp
        simp [swapNode, owned, ownedL, ownPtr] at hp
        subst hp
        exact ⟨rfl, [1, 2], rfl⟩
      · simp [swapNode, Clean, CleanL, CleanInfo, DataType.ofId]
      · simp [swapNode, Tidy, TidyL, Cross, owned, ownPtr, blocks, DataType.ofId]
    · simp only [hr1, List.map_cons, List.map_nil]
      refine ⟨?_, ?_, ?_, ?_, ⟨by decide, ?_⟩, ?_, ?_⟩
      · simp only [swapNode, new, Readable, ReadableL]; decide
      · simp [swapNode, new, val, valL, DistinctV, DistinctVL, DataType.ofId]
      · simp only [swapNode, new, places, placesL, leafPlaces, DataType.ofId, TypeId.bytes]
        simp [List.range_succ, NoShare, Place.Has]
        intros; omega
      · simp [swapNode, new, NatSize, NatSizeL, DataType.ofId, TypeId.bytes]
      · intro p hp
        simp [swapNode, new, owned, ownedL, ownPtr] at hp
        subst hp
        exact ⟨rfl, [3, 4], rfl⟩
      · simp [swapNode, new, Clean, CleanL, CleanInfo, DataType.ofId]
      · simp [swapNode, new, Tidy, TidyL, Cross, owned, ownPtr, blocks, DataType.ofId]
  · intro q r i d src tag hq hi
    rcases q with _ | _ | q
    · simp only [swapRanks, List.getElem?_cons_zero, Option.some.injEq] at hq
      subst hq
      rw [hr0] at hi
      rcases i with _ | i
      · simp at hi
        obtain ⟨rfl, rfl, rfl⟩ := hi
        exact ⟨_, swapNode, ⟨rfl, rfl⟩, trivial⟩
      · simp at hi
    · simp only [swapRanks, List.getElem?_cons_succ, List.getElem?_cons_zero, Option.some.injEq] at hq
      subst hq
      rw [hr1] at hi
      rcases i with _ | _ | i
      · simp at hi
        obtain ⟨rfl, rfl, rfl⟩ := hi
        exact ⟨_, swapNode, ⟨rfl, rfl⟩, trivial⟩
      · simp at hi
        obtain ⟨rfl, rfl, rfl⟩ := hi
        exact ⟨_, swapExtra, ⟨rfl, rfl⟩, trivial⟩
      · simp at hi
    · simp [swapRanks] at hq

/-- the values are exchanged -/
theorem C105_swap :
    ((communicate false 100 swapRanks).bind fun out => .ok (out.map fun u => u.2.map fun n => flat (val u.1 n))) =
      .ok [[[some 3, some 4]], [[some 1, some 2], [some 9]]] := by decide +kernel

/-! ### where more than this would be false -/

/-- C105 needs tags within MPI's limit: larger ones are all made the limit, so messages are received in the order they were sent and not by their tags. -/
theorem C105_large_tags_false :
    let run := fun ub : Int => (communicate false ub
      [⟨conBase, [.send swapNode 1 7, .send swapExtra 1 8], [some [1, 2], some [9]]⟩, ⟨conBase, [.recv new 0 8, .recv new 0 7], []⟩]).bind
        fun out => .ok (out.map fun u => u.2.map fun n => flat (val u.1 n))
    run 100 = .ok [[], [[some 9], [some 1, some 2]]] ∧ run 6 = .ok [[], [[some 1, some 2], [some 9]]] := by
  constructor <;> decide +kernel

/-- C105 needs a send for each receive: the model says that the program waits for ever. -/
theorem C105_no_partner_false :
    communicate false 100 [⟨conBase, [.recv new 0 7, .send swapNode 0 8], [some [1, 2]]⟩] matches .ub := by decide +kernel

end Conduit
