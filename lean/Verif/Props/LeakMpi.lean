import Verif.Props.Leak
import Verif.Model.Irecv
namespace Conduit
open Spec Schema Node Relay Leak

/-! ### C108: receiving and sending with MPI leaks no memory -/

theorem gone_walk {p : Option Ptr} {s : Schema} {m m' : Mem} (he : ∀ d, s = .leaf d → d.id ≠ .empty)
    (h : releaseMem (walk p true s) m = .ok m') : Gone m m' (owned (walk p true s)) := by
  cases s with
  | leaf d =>
    rw [walk, releaseMem] at h
    rw [walk, owned]
    exact gone_freeOwn (fun hb => absurd (by simpa using hb) (he d rfl)) h
  | obj es =>
    rw [walk, releaseMem] at h
    obtain ⟨m1, h1, h2⟩ := of_bind h
    rw [walk, owned]
    exact ((gone_releaseE _ (walkE_false p es).1 h1).trans (gone_freeOwn (by simp) h2)).swap
  | lst es =>
    rw [walk, releaseMem] at h
    obtain ⟨m1, h1, h2⟩ := of_bind h
    rw [walk, owned]
    exact ((gone_releaseL _ (walkL_false p es).1 h1).trans (gone_freeOwn (by simp) h2)).swap

/-- a buffer was made and written, is copied into the node and freed -/
theorem copy_leak {m mb m1 mu m2 : Mem} {buf node n' : Node} (hb : NoLeak m new mb buf) (hl : Le mb m1) (hc : Clean node)
    (hu : update buf node m1 = .ok (mu, n')) (hr : Gone mu m2 (owned buf)) : NoLeak m node m2 n' := by
  intro k hk
  obtain ⟨h1, h2⟩ := hr k hk
  rcases (update_leak buf hc hu).1 k h1 with h | ⟨h3, h4⟩
  · exact .inl h
  · rcases hb k (hl k h3) with h | h
    · exact absurd h h2
    · exact .inr ⟨h.1, h4⟩

theorem setSchema_walk {s : Schema} {n n' : Node} {m m' : Mem} (h : setSchema s n m = .ok (m', n')) : ∃ p, n' = walk p true s := by
  unfold setSchema at h
  obtain ⟨m1, h1, h2⟩ := of_bind h
  injection h2 with h2
  injection h2 with h2 h3
  subst h3
  exact ⟨_, by rw [allocate_alloced]⟩

/-- C108: `recv` -/
theorem C108_recv {base : Nat → Int} {msg : List UInt8} {node n' : Node} {m m' : Mem} (hc : Clean node) (he : node.dtype.id ≠ .empty)
    (h : plainRecv base msg node m = .ok (m', n')) : NoLeak m node m' n' := by
  unfold plainRecv at h
  split at h
  · cases h
  · split at h
    · obtain ⟨m1, h1, h2⟩ := of_bind h
      injection h2 with h2
      injection h2 with h2 h3
      subst h2
      subst h3
      exact (noLeak_refl _ _).le (le_store h1)
    · obtain ⟨r, h1, h2⟩ := of_bind h
      obtain ⟨m1, h3, h4⟩ := of_bind h2
      unfold copyOut at h4
      obtain ⟨u, h5, h6⟩ := of_bind h4
      obtain ⟨m2, h7, h8⟩ := of_bind h6
      injection h8 with h8
      injection h8 with h8 h9
      subst h8
      subst h9
      obtain ⟨p, hp⟩ := setSchema_walk (m' := r.1) (n' := r.2) h1
      refine copy_leak (C107_set_schema (m' := r.1) (n' := r.2) clean_new h1) (le_store h3) hc (mu := u.1) (n' := u.2) h5 ?_
      rw [hp] at h7 ⊢
      refine gone_walk ?_ h7
      intro d hd h0
      cases node with
      | leaf x e =>
        have he : e.id ≠ .empty := he
        rw [Node.schema, Schema.compactTo, compactAt, if_neg he] at hd
        injection hd with hd
        subst hd
        exact he h0
      | obj x es => cases hd
      | lst x es => cases hd

/-- C108: `irecv`, then `wait` -/
theorem C108_irecv_wait {base : Nat → Int} {msg : List UInt8} {node n' : Node} {m m1 m2 : Mem} {r : Request} (hc : Clean node)
    (h : irecv base node m = .ok (m1, r)) (hw : wait r msg node m1 = .ok (m2, n')) : NoLeak m node m2 n' := by
  have hbuf : NoLeak m new m1 r.buf ∧ Clean r.buf := by
    unfold irecv at h
    simp only at h
    split at h
    · cases h
    · split at h
      · injection h with h
        injection h with h h'
        subst h
        subst h'
        exact ⟨noLeak_refl _ _, clean_new⟩
      · obtain ⟨c, h1, h2⟩ := of_bind h
        injection h2 with h2
        injection h2 with h2 h3
        subst h2
        subst h3
        exact ⟨C107_compact_to (m' := c.1) (n' := c.2) clean_new h1, clean_compactTo (m' := c.1) (n' := c.2) clean_new h1⟩
  unfold wait at hw
  obtain ⟨md, h1, h2⟩ := of_bind hw
  have hd : Le m1 md := by
    unfold deliver at h1
    split at h1
    · cases h1
    · exact le_store h1
  unfold finish at h2
  obtain ⟨u, h3, h4⟩ := of_bind h2
  obtain ⟨b, h5, h6⟩ := of_bind h4
  injection h6 with h6
  injection h6 with h6 h7
  subst h6
  subst h7
  have hg := (gone_reset (m' := b.1) (k := b.2) hbuf.2 h5).1
  split at h3
  · exact copy_leak hbuf.1 hd hc (mu := u.1) (n' := u.2) h3 hg
  · injection h3 with h3
    subst h3
    intro k hk
    obtain ⟨g1, g2⟩ := hg k hk
    rcases hbuf.1 k (hd k g1) with g | g
    · exact absurd g g2
    · exact noLeak_refl m node k g.1

/-- C108: `isend`, then `wait` -/
theorem C108_isend_wait {base : Nat → Int} {node : Node} {m m1 m2 : Mem} {r : Request}
    (h : isend base node m = .ok (m1, r)) (hw : waitSend r m1 = .ok m2) : ∀ k, Live m2 k → Live m k := by
  have hbuf : NoLeak m new m1 r.buf ∧ Clean r.buf := by
    unfold isend at h
    simp only at h
    split at h
    · cases h
    · split at h
      · injection h with h
        injection h with h h'
        subst h
        subst h'
        exact ⟨noLeak_refl _ _, clean_new⟩
      · obtain ⟨c, h1, h2⟩ := of_bind h
        injection h2 with h2
        injection h2 with h2 h3
        subst h2
        subst h3
        exact ⟨C107_compact_to (m' := c.1) (n' := c.2) clean_new h1, clean_compactTo (m' := c.1) (n' := c.2) clean_new h1⟩
  unfold waitSend at hw
  obtain ⟨b, h5, h6⟩ := of_bind hw
  injection h6 with h6
  subst h6
  intro k hk
  obtain ⟨g1, g2⟩ := (gone_reset (m' := b.1) (k := b.2) hbuf.2 h5).1 k hk
  rcases hbuf.1 k g1 with g | g
  · exact absurd g g2
  · exact g.1

theorem free_live {m m' : Mem} {p : Ptr} (h : m.free p = .ok m') : Gone m m' [p] := by
  have := gone_freeOwn (x := ⟨some p, true⟩) (e := false) (m := m) (m' := m') (by simp) (by simpa [freeOwn] using h)
  simpa [ownPtr] using this

/-- C108: `recv_using_schema` -/
theorem C108_recv_using_schema {bytes : List UInt8} {node n' : Node} {m m' : Mem} (hc : Clean node)
    (h : recvUsingSchema bytes node m = .ok (m', n')) : NoLeak m node m' n' := by
  unfold recvUsingSchema at h
  split at h
  · cases h
  · obtain ⟨s, _, h2⟩ := of_bind h
    obtain ⟨r, h3, h4⟩ := of_bind h2
    obtain ⟨m2, h5, h6⟩ := of_bind h4
    injection h6 with h6
    injection h6 with h6 h7
    subst h6
    subst h7
    intro k hk
    obtain ⟨g1, g2⟩ := free_live h5 k hk
    rcases (update_leak _ (m' := r.1) (n' := r.2) hc h3).1 k g1 with g | ⟨⟨c, g⟩, g'⟩
    · exact .inl g
    · refine .inr ⟨⟨c, ?_⟩, g'⟩
      have hne : k ≠ m.length := by simpa using g2
      have hlt := (List.getElem?_eq_some_iff.1 g).1
      simp at hlt
      rwa [List.getElem?_append_left (by omega)] at g

/-- C108: `broadcast_using_schema` on a rank other than the root -/
theorem C108_broadcast_using_schema {base : Nat → Int} {part : List UInt8 × List UInt8} {node n' : Node} {m m' : Mem} (hc : Clean node)
    (h : bcastRecv base part node m = .ok (m', n')) : NoLeak m node m' n' := by
  have hnew : ∀ (s : Schema) (node : Node), Clean node → bcastNew part.2 s node m = .ok (m', n') → NoLeak m node m' n' := by
    intro s node hc h
    unfold bcastNew at h
    obtain ⟨r, h1, h2⟩ := of_bind h
    split at h2
    · cases h2
    · obtain ⟨m1, h3, h4⟩ := of_bind h2
      injection h4 with h4
      injection h4 with h4 h5
      subst h4
      subst h5
      exact (C107_set_schema (m' := r.1) (n' := r.2) hc h1).le (le_store h3)
  unfold bcastRecv at h
  obtain ⟨s, _, h2⟩ := of_bind h
  split at h2
  · rename_i x d e
    split at h2
    · rename_i hcond
      split at h2
      · cases h2
      · split at h2
        · obtain ⟨m1, h1, h3⟩ := of_bind h2
          injection h3 with h3
          injection h3 with h3 h4
          subst h3
          subst h4
          exact (noLeak_refl _ _).le (le_store h1)
        · obtain ⟨r, h1, h3⟩ := of_bind h2
          obtain ⟨m1, h4, h5⟩ := of_bind h3
          obtain ⟨u, h6, h7⟩ := of_bind h5
          obtain ⟨m2, h8, h9⟩ := of_bind h7
          injection h9 with h9
          injection h9 with h9 h10
          subst h9
          subst h10
          obtain ⟨p, hp⟩ := setSchema_walk (m' := r.1) (n' := r.2) h1
          refine copy_leak (C107_set_schema (m' := r.1) (n' := r.2) clean_new h1) (le_store h4) hc (mu := u.1) (n' := u.2) h6 ?_
          rw [hp] at h8 ⊢
          refine gone_walk ?_ h8
          intro d' hd'
          injection hd' with hd'
          subst hd'
          exact hcond.2.1
    · exact hnew _ _ hc h2
  · exact hnew _ _ hc h2

/-! ### a case -/

/-- bytes 0 and 2 of four: not compact, so a buffer is used -/
def stridedNode : Node := .leaf ⟨some ⟨0, 0⟩, true⟩ { DataType.ofId .uint8 2 with stride := 2 }

example : Clean stridedNode ∧ stridedNode.dtype.id ≠ .empty := by simp [stridedNode, Clean, CleanInfo, DataType.ofId, Node.dtype]

/-- the buffer, block 1, is freed -/
theorem C108_example : (plainRecv (fun _ => 0) [7, 8] stridedNode [some [0, 0, 0, 0]]).bind (fun r => .ok (r.1, (owned r.2).map Ptr.blk)) =
    .ok ([some [7, 0, 8, 0], none], [0]) := by decide +kernel

theorem C108_irecv_example : ((irecv (fun _ => 0) stridedNode [some [0, 0, 0, 0]]).bind fun r => (wait r.2 [7, 8] stridedNode r.1).bind
      fun q => .ok (r.1, q.1)) = .ok ([some [0, 0, 0, 0], some [0, 0]], [some [7, 0, 8, 0], none]) := by decide +kernel

/-- C108 is false for `recv` into an empty node: the buffer has the empty schema, and the block of no bytes it allocates is not freed (C107_empty_schema_false). -/
theorem C108_recv_empty_false : ∃ m' n', plainRecv (fun _ => 0) [] new [] = .ok (m', n') ∧ ¬ NoLeak [] new m' n' := by
  refine ⟨[some []], new, by rfl, fun h => ?_⟩
  rcases h 0 ⟨[], rfl⟩ with h | ⟨⟨_, h⟩, _⟩
  · simp [new, owned, ownPtr] at h
  · cases h

end Conduit
