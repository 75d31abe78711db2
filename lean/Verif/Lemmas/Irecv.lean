import Verif.Model.Irecv
import Verif.Lemmas.PlainMsg2
namespace Conduit
namespace Relay
open Spec Spec.Tree Schema Node

theorem free_dead {m m' : Mem} {p : Ptr} (h : m.free p = .ok m') : ¬ Live m' p.blk := by
  unfold Mem.free at h
  split at h
  · cases h
  · split at h
    · rename_i hx
      injection h with h
      subst h
      rintro ⟨bs, hb⟩
      have hlt : p.blk < m.length := (List.getElem?_eq_some_iff.1 hx).1
      rw [List.getElem?_set_self hlt] at hb
      cases hb
    · cases h

/-- `reset` frees the buffer of a compact copy -/
theorem reset_dead {m m' : Mem} {p : Ptr} {s : Schema} {k : Node} (hpos : 0 < totalBytesCompact s)
    (h : (walk (some p) true s.compactTo).reset m = .ok (m', k)) : ¬ Live m' p.blk := by
  unfold Node.reset at h
  cases hrel : releaseMem (walk (some p) true s.compactTo) m with
  | error => rw [hrel] at h; cases h
  | ub => rw [hrel] at h; cases h
  | ok m1 =>
    rw [hrel, bind_ok] at h
    injection h with h
    injection h with h _
    subst h
    cases s with
    | leaf d =>
      have hne : d.id ≠ .empty := by
        intro h0
        rw [totalBytesCompact, if_pos h0] at hpos
        exact absurd hpos (by decide)
      simp [Schema.compactTo, compactAt, hne, walk, releaseMem, freeOwn] at hrel
      rw [if_neg (show ¬ d.compactTo.id = .empty from hne)] at hrel
      exact free_dead hrel
    | obj es =>
      simp only [Schema.compactTo, compactAt, walk, releaseMem] at hrel
      cases he : releaseE (walkE (some p) (compactAtE es 0)) m with
      | error => rw [he] at hrel; cases hrel
      | ub => rw [he] at hrel; cases hrel
      | ok m2 =>
        rw [he, bind_ok] at hrel
        exact free_dead hrel
    | lst es =>
      simp only [Schema.compactTo, compactAt, walk, releaseMem] at hrel
      cases he : releaseL (walkL (some p) (compactAtL es 0)) m with
      | error => rw [he] at hrel; cases hrel
      | ub => rw [he] at hrel; cases hrel
      | ok m2 =>
        rw [he, bind_ok] at hrel
        exact free_dead hrel

theorem compactTo_zero {n n' : Node} {m m' : Mem} (hr : Readable m n) (hz : totalBytesCompact n.schema = 0) (h : compactTo n new m = .ok (m', n')) : m' = m := by
  unfold Node.compactTo at h
  obtain ⟨m4, g1, g2⟩ := reset_spec new m (good_nil m)
  have hm4 : m4 = m := by
    apply List.ext_getElem?
    intro i
    exact g2.2 i (by simp [new, owned, ownPtr])
  subst hm4
  rw [g1, bind_ok] at h
  simp only [hz] at h
  rw [if_neg (by decide), (compactWrite_zero _ true n 0 m4 hr hz).1, bind_ok] at h
  injection h with h
  injection h with h _
  exact h.symm

theorem dead_byte {m : Mem} {b : Nat} (h : ¬ Live m b) (i : Int) : m.byte b i = none := by
  rcases hx : m.byte b i with _ | x
  · rfl
  · exfalso
    apply h
    unfold Mem.byte at hx
    split at hx
    · rename_i bs hb
      exact ⟨bs, hb⟩
    · cases hx

/-- the bytes that belong to a node -/
def Foot (n : Node) (b : Nat) (i : Int) : Prop := b ∈ (owned n).map Ptr.blk ∨ ∃ pl ∈ places n, pl.Has b i

/-- the elements of a node are one run, where it is -/
structure RunAt (t : Node) (p : Option Ptr) (o : Int) : Prop where
  flat : ∀ m, Readable m t → Spec.flat (val m t) = (List.range (Spec.flat (val m t)).length).map fun (k : Nat) => m.byteAt p (o + k)
  foot : ∀ q, p = some q → ∀ (m : Mem) (i : Int), q.off + o ≤ i → i < q.off + o + (Spec.flat (val m t)).length → Foot t q.blk i

theorem flat_len_eq {m m' : Mem} {t : Node} : (flat (val m t)).length = (flat (val m' t)).length := by
  rw [flat_blank_len, blank_val, ← blank_val m', ← flat_blank_len]

theorem flat_total {m : Mem} {t : Node} (hr : Readable m t) : ((flat (val m t)).length : Int) = totalBytesCompact t.schema := by
  obtain ⟨bs, b1, b2⟩ := flat_bytes_exist hr
  rw [← b1, List.length_map, b2]

theorem ready_sizes {m m' : Mem} {n : Node} (h : ∀ b, m'.size b = m.size b) (hd : Ready m n) : Ready m' n := by
  refine ⟨readable_sizes ?_ n hd.readable, hd.sep, hd.nat, hd.clean, ⟨hd.good.1, fun q hq => ⟨(hd.good.2 q hq).1, ?_⟩⟩, hd.tidy⟩
  · intro b i hh
    rw [Mem.byte_isSome, h]
    exact (Mem.byte_isSome _ _ _).1 hh
  · rw [live_iff, h, ← live_iff]
    exact (hd.good.2 q hq).2

/-- a message stored at the start of a run -/
theorem store_run {t : Node} {m : Mem} {p : Option Ptr} {o : Int} {msg : List UInt8} (hr : Readable m t) (h : RunAt t p o)
    (hl : (msg.length : Int) ≤ totalBytesCompact t.schema) :
    ∃ m', m.store p o msg = .ok m' ∧ m'.length = m.length ∧ (∀ b, m'.size b = m.size b) ∧
      flat (val m' t) = msg.map some ++ (flat (val m t)).drop msg.length ∧
      (∀ b i, ¬ Foot t b i → m'.byte b i = m.byte b i) := by
  have hf := h.flat m hr
  have htot := flat_total hr
  rcases Nat.eq_zero_or_pos msg.length with h0 | hpos
  · rw [List.eq_nil_of_length_eq_zero h0]
    exact ⟨m, rfl, rfl, fun _ => rfl, rfl, fun _ _ _ => rfl⟩
  · have hsome : ∀ k : Nat, k < (flat (val m t)).length → (m.byteAt p (o + k)).isSome := by
      intro k hk
      refine readable_flat t hr _ ?_
      rw [hf]
      exact List.mem_map.2 ⟨k, by rw [List.mem_range]; exact hk, rfl⟩
    obtain ⟨q, rfl⟩ : ∃ q, p = some q := by
      have := hsome 0 (by omega)
      cases p with
      | none => simp [Mem.byteAt] at this
      | some q => exact ⟨q, rfl⟩
    obtain ⟨m1, s1, s2, s3, s4⟩ := Mem.store_spec (m := m) (q := q) (off := o) (xs := msg) (by
      intro k hk
      have := hsome k (by omega)
      simp only [Mem.byteAt] at this
      rw [show q.off + o + (k : Int) = q.off + (o + k) by omega]
      exact this)
    have hr1 : Readable m1 t := readable_sizes (by
      intro b i hh
      rw [Mem.byte_isSome, s3]
      exact (Mem.byte_isSome _ _ _).1 hh) t hr
    refine ⟨m1, s1, s2, s3, ?_, ?_⟩
    · have hl1 : (flat (val m1 t)).length = (flat (val m t)).length := flat_len_eq
      rw [h.flat m1 hr1, hl1]
      apply List.ext_getElem?
      intro k
      by_cases hk : k < (flat (val m t)).length
      · rw [List.getElem?_map, List.getElem?_range hk, Option.map_some]
        simp only [Mem.byteAt]
        rw [s4]
        by_cases hkm : k < msg.length
        · rw [if_pos ⟨rfl, by omega, by omega⟩, List.getElem?_append_left (by simpa using hkm), List.getElem?_map,
            show (q.off + (o + (k : Int)) - (q.off + o)).toNat = k by omega, List.getElem?_eq_getElem hkm]
          rfl
        · rw [if_neg (by rintro ⟨_, _, h⟩; omega), List.getElem?_append_right (by simpa using hkm), List.length_map, List.getElem?_drop,
            show msg.length + (k - msg.length) = k by omega]
          conv_rhs => rw [hf]
          rw [List.getElem?_map, List.getElem?_range hk]
          rfl
      · rw [List.getElem?_eq_none (by simpa using hk), List.getElem?_eq_none (by
          rw [List.length_append, List.length_map, List.length_drop]; omega)]
    · intro b i hno
      rw [s4, if_neg]
      rintro ⟨rfl, i1, i2⟩
      exact hno (h.foot q rfl m i i1 (by omega))

/-! ### receives that are posted -/

structure Item where
  req : Request
  dest : Node

/-- where MPI writes to -/
def tgt (x : Item) : Node := if x.req.copy then x.req.buf else x.dest

structure Posted (m : Mem) (x : Item) : Prop where
  ready : Ready m x.dest
  names : DistinctV (val m x.dest)
  size : x.req.size = totalBytesCompact x.dest.schema
  rd : Readable m (tgt x)
  run : RunAt (tgt x) x.req.data x.req.off
  good : GoodOwners m (owned x.req.buf)
  rdb : Readable m x.req.buf
  shape : blankS (tgt x).schema = blankS x.dest.schema
  buf : x.req.copy = true → ∃ p al s, x.req.buf = walk p al s
  own : ∀ p ∈ owned x.dest, p.blk ∉ blocks x.req.buf
  own2 : ∀ p ∈ owned x.req.buf, p.blk ∉ blocks x.dest ∧ p.blk ∉ (owned x.dest).map Ptr.blk
  share : ∀ a ∈ places x.req.buf, ∀ b ∈ places x.dest, NoShare a b
  frees : ∀ m2 m3 k, x.req.buf.reset m2 = .ok (m3, k) → ∀ q ∈ owned x.req.buf, ¬ Live m3 q.blk

theorem Posted.total {m : Mem} {x : Item} (h : Posted m x) : totalBytesCompact (tgt x).schema = totalBytesCompact x.dest.schema := by
  rw [← flat_total h.rd, ← flat_total h.ready.readable, flat_blank_len, blank_val, h.shape, ← blank_val m x.dest, ← flat_blank_len]

/-- what steps of these receives may do -/
structure Within (m m' : Mem) (xs : List Item) : Prop where
  len : m.length ≤ m'.length
  keep : ∀ b i, b < m.length → (∀ x ∈ xs, ¬ Foot x.dest b i ∧ ¬ Foot x.req.buf b i) → m'.byte b i = m.byte b i
  live : ∀ b, b < m.length → (∀ x ∈ xs, b ∉ (owned x.dest).map Ptr.blk ∧ b ∉ (owned x.req.buf).map Ptr.blk) → Live m b → Live m' b

theorem Within.refl (m : Mem) (xs : List Item) : Within m m xs := ⟨Nat.le_refl _, fun _ _ _ _ => rfl, fun _ _ _ h => h⟩

theorem Within.trans {m m1 m2 : Mem} {xs ys zs : List Item} (h : Within m m1 xs) (h' : Within m1 m2 ys) (hx : ∀ x ∈ xs, x ∈ zs)
    (hy : ∀ y ∈ ys, y ∈ zs) : Within m m2 zs := by
  have hl := h.len
  refine ⟨Nat.le_trans h.len h'.len, fun b i hb hn => ?_, fun b hb hn hlv => ?_⟩
  · rw [h'.keep b i (by omega) (fun y m => hn y (hy y m)), h.keep b i hb (fun y m => hn y (hx y m))]
  · exact h'.live b (by omega) (fun y m => hn y (hy y m)) (h.live b hb (fun y m => hn y (hx y m)) hlv)

/-- a receive has nothing to do with a node -/
structure Clear (x : Item) (n : Node) : Prop where
  dest : ∀ b i, Foot x.dest b i → ¬ Foot n b i
  buf : ∀ b i, Foot x.req.buf b i → ¬ Foot n b i

theorem keep_same {m m' : Mem} {xs : List Item} (h : Within m m' xs) {n : Node} (hc : ∀ x ∈ xs, Clear x n) (hr : Readable m n) : Same m m' n := by
  intro pl hpl b i hh
  refine h.keep b i (blocks_lt n hr b (has_blocks n pl hpl b i hh)) (fun x hx => ⟨fun hf => ?_, fun hf => ?_⟩)
  · exact (hc x hx).dest b i hf (.inr ⟨pl, hpl, hh⟩)
  · exact (hc x hx).buf b i hf (.inr ⟨pl, hpl, hh⟩)

theorem keep_good {m m' : Mem} {xs : List Item} (h : Within m m' xs) {n : Node} (hc : ∀ x ∈ xs, Clear x n) (hg : GoodOwners m (owned n)) :
    GoodOwners m' (owned n) := by
  refine ⟨hg.1, fun q hq => ⟨(hg.2 q hq).1, h.live q.blk (owned_lt hg q hq) (fun x hx => ⟨fun hf => ?_, fun hf => ?_⟩) (hg.2 q hq).2⟩⟩
  · exact (hc x hx).dest q.blk 0 (.inl hf) (.inl (List.mem_map.2 ⟨q, hq, rfl⟩))
  · exact (hc x hx).buf q.blk 0 (.inl hf) (.inl (List.mem_map.2 ⟨q, hq, rfl⟩))

theorem keep_ready {m m' : Mem} {xs : List Item} (h : Within m m' xs) {n : Node} (hc : ∀ x ∈ xs, Clear x n) (hr : Ready m n) :
    Ready m' n ∧ val m' n = val m n := by
  have hs := keep_same h hc hr.readable
  exact ⟨⟨readable_same n hs hr.readable, hr.sep, hr.nat, hr.clean, keep_good h hc hr.good, hr.tidy⟩, val_same n hs⟩

theorem keep_item {m m' : Mem} {xs : List Item} (h : Within m m' xs) {y : Item} (hc : ∀ x ∈ xs, Clear x y.dest ∧ Clear x y.req.buf) (hp : Posted m y) :
    Posted m' y ∧ val m' (tgt y) = val m (tgt y) := by
  obtain ⟨r1, r2⟩ := keep_ready h (fun x hx => (hc x hx).1) hp.ready
  have hct : ∀ x ∈ xs, Clear x (tgt y) := by
    intro x hx
    unfold tgt
    split
    · exact (hc x hx).2
    · exact (hc x hx).1
  have hs := keep_same h hct hp.rd
  refine ⟨⟨r1, by rw [r2]; exact hp.names, hp.size, readable_same _ hs hp.rd, hp.run, keep_good h (fun x hx => (hc x hx).2) hp.good,
    readable_same _ (keep_same h (fun x hx => (hc x hx).2) hp.rdb) hp.rdb, hp.shape, hp.buf,
    hp.own, hp.own2, hp.share, hp.frees⟩, val_same _ hs⟩

theorem tgt_foot {x : Item} {b : Nat} {i : Int} (h1 : ¬ Foot x.dest b i) (h2 : ¬ Foot x.req.buf b i) : ¬ Foot (tgt x) b i := by
  unfold tgt
  split
  · exact h2
  · exact h1

theorem deliver_ok {m : Mem} {x : Item} (h : Posted m x) {msg : List UInt8} (hl : (msg.length : Int) ≤ totalBytesCompact x.dest.schema) :
    ∃ m', deliver x.req msg m = .ok m' ∧ Within m m' [x] ∧ Posted m' x ∧
      flat (val m' (tgt x)) = msg.map some ++ (flat (val m (tgt x))).drop msg.length := by
  obtain ⟨m', s1, s2, s3, s4, s5⟩ := store_run h.rd h.run (msg := msg) (by rw [h.total]; exact hl)
  have hrs : ∀ n, Readable m n → Readable m' n := fun n hn => readable_sizes (by
    intro b i hh
    rw [Mem.byte_isSome, s3]
    exact (Mem.byte_isSome _ _ _).1 hh) n hn
  refine ⟨m', ?_, ⟨by omega, ?_, ?_⟩, ⟨ready_sizes s3 h.ready, ?_, h.size, hrs _ h.rd, h.run, ?_, hrs _ h.rdb, h.shape, h.buf, h.own, h.own2, h.share, h.frees⟩, s4⟩
  · unfold deliver
    rw [h.size, if_neg (by omega), s1]
  · intro b i _ hn
    have := hn x (by simp)
    exact s5 b i (tgt_foot this.1 this.2)
  · intro b _ _ hlv
    rw [live_iff, s3, ← live_iff]; exact hlv
  · rw [← distinct_blank, blank_val, ← blank_val m, distinct_blank]; exact h.names
  · refine ⟨h.good.1, fun q hq => ⟨(h.good.2 q hq).1, ?_⟩⟩
    rw [live_iff, s3, ← live_iff]
    exact (h.good.2 q hq).2

/-- what a finished receive leaves -/
structure Done (m m' : Mem) (x : Item) (d : Node) : Prop where
  value : val m' d = val m (tgt x)
  ready : Ready m' d
  within : Within m m' [x]
  own : ∀ p ∈ owned d, p ∈ owned x.dest ∨ m.length ≤ p.blk
  plc : ∀ pl ∈ places d, pl ∈ places x.dest ∨ ∀ b i, pl.Has b i → m.length ≤ b
  dead : ∀ q ∈ owned x.req.buf, ∀ i, m'.byte q.blk i = none

theorem finish_ok {m : Mem} {x : Item} (h : Posted m x) : ∃ m' d, finish x.req x.dest m = .ok (m', d) ∧ Done m m' x d := by
  unfold finish
  by_cases hc : x.req.copy = true
  · have ht : tgt x = x.req.buf := by simp [tgt, hc]
    have hrd := h.rd
    have hshape := h.shape
    rw [ht] at hrd hshape
    obtain ⟨p, al, s, hw⟩ := h.buf hc
    have hblank : blank (val m x.req.buf) = blank (val m x.dest) := by rw [blank_val, blank_val, hshape]
    have hdist : DistinctV (val m x.req.buf) := by rw [← distinct_blank, hblank, distinct_blank]; exact h.names
    obtain ⟨m2, d2, u1, u2, u3, u4⟩ := update_spec x.req.buf x.dest m ⟨hrd, h.own, h.share⟩ h.ready (fits_same _ _ hblank hdist) hdist h.names
    rw [merge_same _ _ hblank (by rw [hw, val_walk]; exact proper_view _ _ _) hdist] at u4
    have hlive : GoodOwners m2 (owned x.req.buf) := by
      refine ⟨h.good.1, fun q hq => ⟨(h.good.2 q hq).1, u2.live q.blk (owned_lt h.good q hq) (h.own2 q hq).2 (h.good.2 q hq).2⟩⟩
    obtain ⟨m3, f1, f2⟩ := reset_spec x.req.buf m2 hlive
    have hnot : ∀ b ∈ (owned x.req.buf).map Ptr.blk, b < m.length ∧ b ∉ blocks x.dest ∧ b ∉ (owned x.dest).map Ptr.blk := by
      intro b hb
      obtain ⟨q, hq, rfl⟩ := List.mem_map.1 hb
      exact ⟨owned_lt h.good q hq, h.own2 q hq⟩
    have hb2 : ∀ b ∈ blocks d2, b ∉ (owned x.req.buf).map Ptr.blk := by
      intro b hb hh
      obtain ⟨a1, a2, a3⟩ := hnot b hh
      rcases u2.blk b hb with h | h
      · exact a2 h
      · omega
    have hbyte : ∀ b i, b ∉ (owned x.req.buf).map Ptr.blk → Mem.byte m3 b i = m2.byte b i := by
      intro b i hb
      unfold Mem.byte
      rw [f2.2 b hb]
    have ag : Agree m2 m3 (blocks d2) := fun b hb i => hbyte b i (hb2 b hb)
    refine ⟨m3, d2, ?_, ?_, ?_, ⟨?_, ?_, ?_⟩, u2.own, u2.plc, fun q hq i => dead_byte (h.frees _ _ _ f1 q hq) i⟩
    · rw [if_pos hc, u1, bind_ok, f1, bind_ok]
    · rw [val_agree d2 ag, u4, ht]
    · refine ⟨(readable_agree d2 ag).2 u3.readable, u3.sep, u3.nat, u3.clean, ⟨u3.good.1, fun q hq => ⟨(u3.good.2 q hq).1, ?_⟩⟩, u3.tidy⟩
      have hne : q.blk ∉ (owned x.req.buf).map Ptr.blk := by
        intro hh
        obtain ⟨a1, a2, a3⟩ := hnot _ hh
        rcases u2.own q hq with h | h
        · exact a3 (List.mem_map.2 ⟨q, h, rfl⟩)
        · omega
      obtain ⟨xs, hx⟩ := (u3.good.2 q hq).2
      exact ⟨xs, by rw [f2.2 _ hne]; exact hx⟩
    · rw [f2.1]; exact u2.len
    · intro b i hb hn
      obtain ⟨n1, n2⟩ := hn x (by simp)
      rw [hbyte b i (fun hh => n2 (.inl hh)), u2.keep b i hb (fun hh => n1 (.inl hh)) (fun pl hpl hh => n1 (.inr ⟨pl, hpl, hh⟩))]
    · intro b hb hn hlv
      obtain ⟨n1, n2⟩ := hn x (by simp)
      obtain ⟨bs, hbs⟩ := u2.live b hb n1 hlv
      exact ⟨bs, by rw [f2.2 b n2]; exact hbs⟩
  · have ht : tgt x = x.dest := by simp [tgt, hc]
    obtain ⟨m3, f1, f2⟩ := reset_spec x.req.buf m h.good
    have hbyte : ∀ b i, b ∉ (owned x.req.buf).map Ptr.blk → Mem.byte m3 b i = m.byte b i := by
      intro b i hb
      unfold Mem.byte
      rw [f2.2 b hb]
    have ag : Agree m m3 (blocks x.dest) := fun b hb i => hbyte b i (fun hh => by
      obtain ⟨q, hq, rfl⟩ := List.mem_map.1 hh
      exact (h.own2 q hq).1 hb)
    refine ⟨m3, x.dest, ?_, ?_, ?_, ⟨?_, ?_, ?_⟩, fun _ h => .inl h, fun _ h => .inl h, fun q hq i => dead_byte (h.frees _ _ _ f1 q hq) i⟩
    · rw [if_neg hc, bind_ok, f1, bind_ok]
    · rw [val_agree x.dest ag, ht]
    · refine ⟨(readable_agree x.dest ag).2 h.ready.readable, h.ready.sep, h.ready.nat, h.ready.clean, ⟨h.ready.good.1, fun q hq => ⟨(h.ready.good.2 q hq).1, ?_⟩⟩,
        h.ready.tidy⟩
      obtain ⟨xs, hx⟩ := (h.ready.good.2 q hq).2
      refine ⟨xs, ?_⟩
      rw [f2.2 _ ?_]
      · exact hx
      · intro hh
        obtain ⟨q', hq', he⟩ := List.mem_map.1 hh
        exact (h.own2 q' hq').2 (by rw [he]; exact List.mem_map.2 ⟨q, hq, rfl⟩)
    · rw [f2.1]
    · intro b i hb hn
      obtain ⟨n1, n2⟩ := hn x (by simp)
      exact hbyte b i (fun hh => n2 (.inl hh))
    · intro b hb hn hlv
      obtain ⟨n1, n2⟩ := hn x (by simp)
      obtain ⟨bs, hbs⟩ := hlv
      exact ⟨bs, by rw [f2.2 b n2]; exact hbs⟩

/-! ### all of them -/

/-- two receives have nothing to do with each other -/
def Sep (x y : Item) : Prop := (Clear x y.dest ∧ Clear x y.req.buf) ∧ (Clear y x.dest ∧ Clear y x.req.buf)

def pack (l : List (Item × List UInt8)) : List (Request × List UInt8 × Node) := l.map fun x => (x.1.req, x.2, x.1.dest)

theorem deliverAll_ok : ∀ (l : List (Item × List UInt8)) (m : Mem), (∀ x ∈ l, Posted m x.1) → (l.map Prod.fst).Pairwise Sep →
    (∀ x ∈ l, (x.2.length : Int) ≤ totalBytesCompact x.1.dest.schema) →
    ∃ m', deliverAll (pack l) m = .ok m' ∧ Within m m' (l.map Prod.fst) ∧
      ∀ x ∈ l, Posted m' x.1 ∧ flat (val m' (tgt x.1)) = x.2.map some ++ (flat (val m (tgt x.1))).drop x.2.length
  | [], m, _, _, _ => ⟨m, rfl, Within.refl _ _, by simp⟩
  | (x, msg) :: l, m, hp, hs, hl => by
    rw [List.map_cons, List.pairwise_cons] at hs
    obtain ⟨m1, d1, d2, d3, d4⟩ := deliver_ok (hp (x, msg) (by simp)) (hl (x, msg) (by simp))
    have hk : ∀ y ∈ l, Posted m1 y.1 ∧ val m1 (tgt y.1) = val m (tgt y.1) := by
      intro y hy
      refine keep_item d2 (fun z hz => ?_) (hp y (by simp [hy]))
      rw [List.mem_singleton] at hz
      subst hz
      exact (hs.1 y.1 (List.mem_map.2 ⟨y, hy, rfl⟩)).1
    obtain ⟨m2, e1, e2, e3⟩ := deliverAll_ok l m1 (fun y hy => (hk y hy).1) hs.2 (fun y hy => hl y (by simp [hy]))
    refine ⟨m2, ?_, d2.trans e2 (by simp) (fun y hy => by rw [List.map_cons]; exact List.mem_cons_of_mem _ hy), ?_⟩
    · show (do let m1 ← deliver x.req msg m; deliverAll (pack l) m1 : Res Mem) = _
      rw [d1, bind_ok, e1]
    · intro y hy
      rw [List.mem_cons] at hy
      rcases hy with rfl | hy
      · obtain ⟨k1, k2⟩ := keep_item e2 (fun z hz => (hs.1 z hz).2) d3
        exact ⟨k1, by rw [k2, d4]⟩
      · have := e3 y hy
        rw [(hk y hy).2] at this
        exact this

theorem forall₂_mem {α β : Type} {R S : α → β → Prop} {l : List α} {ns : List β} (h : List.Forall₂ R l ns)
    (hm : ∀ x ∈ l, ∀ n, R x n → S x n) : List.Forall₂ S l ns := by
  induction h with
  | nil => exact .nil
  | cons a _ ih => exact .cons (hm _ (by simp) _ a) (ih fun x hx => hm x (by simp [hx]))

theorem finishAll_ok : ∀ (l : List (Item × List UInt8)) (m : Mem), (∀ x ∈ l, Posted m x.1) → (l.map Prod.fst).Pairwise Sep →
    ∃ m' ns, finishAll (pack l) m = .ok (m', ns) ∧ Within m m' (l.map Prod.fst) ∧
      List.Forall₂ (fun (x : Item × List UInt8) n => val m' n = val m (tgt x.1) ∧ Ready m' n) l ns ∧
      ∀ x ∈ l, ∀ q ∈ owned x.1.req.buf, ∀ i, m'.byte q.blk i = none
  | [], m, _, _ => ⟨m, [], rfl, Within.refl _ _, .nil, by simp⟩
  | (x, msg) :: l, m, hp, hs => by
    rw [List.map_cons, List.pairwise_cons] at hs
    obtain ⟨m1, d, d1, d2⟩ := finish_ok (hp (x, msg) (by simp))
    have hk : ∀ y ∈ l, Posted m1 y.1 ∧ val m1 (tgt y.1) = val m (tgt y.1) := by
      intro y hy
      refine keep_item d2.within (fun z hz => ?_) (hp y (by simp [hy]))
      rw [List.mem_singleton] at hz
      subst hz
      exact (hs.1 y.1 (List.mem_map.2 ⟨y, hy, rfl⟩)).1
    obtain ⟨m2, ns, e1, e2, e3, e4⟩ := finishAll_ok l m1 (fun y hy => (hk y hy).1) hs.2
    refine ⟨m2, d :: ns, ?_, d2.within.trans e2 (by simp) (fun y hy => by rw [List.map_cons]; exact List.mem_cons_of_mem _ hy), .cons ?_ ?_, ?_⟩
    · show (do
        let u ← finish x.req x.dest m
        let us ← finishAll (pack l) u.1
        .ok (us.1, u.2 :: us.2) : Res (Mem × List Node)) = _
      rw [d1, bind_ok, e1, bind_ok]
    · have hclear : ∀ y ∈ l.map Prod.fst, Clear y d := by
        intro y hy
        have hpy : Posted m y := by
          obtain ⟨z, hz, rfl⟩ := List.mem_map.1 hy
          exact hp z (by simp [hz])
        have hsy := (hs.1 y hy).2.1
        have low : ∀ b i, (Foot y.dest b i ∨ Foot y.req.buf b i) → b < m.length := by
          intro b i h
          rcases h with (h | ⟨pl, h1, h2⟩) | (h | ⟨pl, h1, h2⟩)
          · obtain ⟨q, hq, rfl⟩ := List.mem_map.1 h
            exact owned_lt hpy.ready.good q hq
          · exact blocks_lt _ hpy.ready.readable b (has_blocks _ pl h1 b i h2)
          · obtain ⟨q, hq, rfl⟩ := List.mem_map.1 h
            exact owned_lt hpy.good q hq
          · exact blocks_lt _ hpy.rdb b (has_blocks _ pl h1 b i h2)
        have hd : ∀ b i, b < m.length → Foot d b i → Foot x.dest b i := by
          intro b i hb h
          rcases h with h | ⟨pl, h1, h2⟩
          · obtain ⟨q, hq, rfl⟩ := List.mem_map.1 h
            rcases d2.own q hq with h | h
            · exact .inl (List.mem_map.2 ⟨q, h, rfl⟩)
            · omega
          · rcases d2.plc pl h1 with h | h
            · exact .inr ⟨pl, h, h2⟩
            · have := h b i h2; omega
        exact ⟨fun b i h h' => hsy.dest b i h (hd b i (low b i (.inl h)) h'), fun b i h h' => hsy.buf b i h (hd b i (low b i (.inr h)) h')⟩
      obtain ⟨r1, r2⟩ := keep_ready e2 hclear d2.ready
      exact ⟨by rw [r2, d2.value], r1⟩
    · exact forall₂_mem e3 (fun y hy n h => by rw [(hk y hy).2] at h; exact h)
    · intro y hy q hq i
      rcases List.mem_cons.1 hy with rfl | hy
      · have hlt := owned_lt (hp (x, msg) (by simp)).good q hq
        have hlen := d2.within.len
        rw [e2.keep q.blk i (by omega) (fun z hz => ?_)]
        · exact d2.dead q hq i
        · have hc := (hs.1 z hz).2.2
          have hf : Foot x.req.buf q.blk i := .inl (List.mem_map.2 ⟨q, hq, rfl⟩)
          exact ⟨fun h => hc.dest _ _ h hf, fun h => hc.buf _ _ h hf⟩
      · exact e4 y hy q hq i

/-! ### posting -/

theorem not_foot_new (b : Nat) (i : Int) : ¬ Foot new b i := by
  rintro (h | ⟨pl, h, _⟩)
  · simp [new, owned, ownPtr] at h
  · simp [new, places, leafPlaces] at h

/-- a new receive; its buffer is new -/
theorem irecv_ok {base : Nat → Int} {dest : Node} {m : Mem} (hd : Ready m dest) (hdd : DistinctV (val m dest))
    (h1 : dest.schema.isCompact = true → isContiguous base dest = true → OneRun base dest) (h2 : totalBytesCompact dest.schema < 2 ^ 31) :
    ∃ m' r, irecv base dest m = .ok (m', r) ∧ Within m m' [] ∧ Posted m' ⟨r, dest⟩ ∧ val m' (tgt ⟨r, dest⟩) = val m dest ∧
      (∀ b i, Foot r.buf b i → m.length ≤ b) ∧ ∀ b, m.length ≤ b → b < m'.length → ∃ q ∈ owned r.buf, q.blk = b := by
  have ht := total_nonneg _ (countsOK_of hd.readable)
  unfold irecv
  simp only [castInt_small ht h2]
  rw [if_neg (by omega)]
  cases ho : ownData base dest with
  | some x =>
    obtain ⟨p, o⟩ := x
    obtain ⟨c1, c2, c3⟩ := own_some ho
    have hrun : RunAt dest p o := by
      obtain ⟨q, rfl, _, hq⟩ := run_flat (h1 c1 c2) c2 c3
      refine ⟨fun m hr => (hq m hr).trans ?_, fun q' hq' m i i1 i2 => ?_⟩
      · apply List.map_congr_left
        intro k _
        simp only [Mem.byteAt]
        congr 1
        omega
      · injection hq' with hq'
        subst hq'
        exact .inr (run_place (m := m) (h1 c1 c2) c2 c3 i i1 i2)
    refine ⟨m, ⟨new, p, o, _, false⟩, rfl, Within.refl _ _, ⟨hd, hdd, rfl, hd.readable, hrun, good_nil m, ?_, rfl, (by simp), ?_, ?_, ?_, ?_⟩, rfl, ?_, fun b h1 h2 => by omega⟩
    · simp [new, Readable]
    · intro q _; simp [new, blocks]
    · intro q hq; simp [new, owned, ownPtr] at hq
    · intro a ha; simp [new, places, leafPlaces] at ha
    · intro _ _ _ _ q hq; simp [new, owned, ownPtr] at hq
    · intro b i h; exact absurd h (not_foot_new b i)
  | none =>
    obtain ⟨m', n', k1, k2, k3⟩ := compactTo_copied dest new m hd.readable (good_nil m) (by simp [new, owned, ownPtr])
    obtain ⟨p, al, hw⟩ := compactTo_walk dest new m m' n' k1
    obtain ⟨f1, f2, f3⟩ := k3.fresh clean_new
    have hframe : ∀ b, b < m.length → m'.size b = m.size b ∧ ∀ i, m'.byte b i = m.byte b i := fun b hb =>
      k3.frame.2 b hb (by simp [new, owned, ownPtr])
    have hwith : Within m m' [] := ⟨k3.frame.1, fun b i hb _ => (hframe b hb).2 i, fun b hb _ hl => by
      rw [live_iff, (hframe b hb).1, ← live_iff]; exact hl⟩
    obtain ⟨r1, r2⟩ := keep_ready hwith (n := dest) (by simp) hd
    have hbd : ∀ b ∈ blocks dest, b < m.length := blocks_lt dest hd.readable
    have hod : ∀ q ∈ owned dest, q.blk < m.length := owned_lt hd.good
    have hrun : RunAt n' n'.info.data 0 := by
      rw [hw, info_walk]
      refine ⟨fun m2 _ => ?_, fun q hq m2 i i1 i2 => ?_⟩
      · have := flat_walk_compact m2 p al dest.schema 0 (countsOK_of hd.readable)
        rw [show dest.schema.compactTo = compactAt dest.schema 0 from rfl]
        rw [this]
        unfold Spec.run
        simp [Function.comp_def]
      · simp only at hq
        have hpos : 0 < totalBytesCompact dest.schema := by
          have hl : (Spec.flat (val m2 (walk p al dest.schema.compactTo))).length = (totalBytesCompact dest.schema).toNat := by
            rw [show dest.schema.compactTo = compactAt dest.schema 0 from rfl,
              flat_walk_compact m2 p al dest.schema 0 (countsOK_of hd.readable)]
            simp [Spec.run]
          omega
        obtain ⟨m'', bs, e1, _⟩ := compactTo_block dest new m hd.readable (good_nil m) (by simp [new, owned, ownPtr]) hpos
        rw [k1] at e1
        injection e1 with e1
        injection e1 with e1 e2
        have : owned n' = [⟨m.length, 0⟩] := by rw [e2]; exact owned_walk_true _ _
        rw [← hw, Foot, this]
        have hi : n'.info.data = some ⟨m.length, 0⟩ := by rw [e2, info_walk]
        rw [hw, info_walk] at hi
        simp only at hi
        rw [hq] at hi
        injection hi with hi
        rw [hi]
        exact .inl (by simp)
    have hfoot : ∀ b i, Foot n' b i → m.length ≤ b := by
      rintro b i (h | ⟨pl, h1, h2⟩)
      · obtain ⟨q, hq, rfl⟩ := List.mem_map.1 h
        exact f3 q hq
      · exact k3.blocks b (has_blocks n' pl h1 b i h2)
    have hcase : (0 < totalBytesCompact dest.schema ∧ n' = walk (some ⟨m.length, 0⟩) true dest.schema.compactTo ∧ m'.length = m.length + 1) ∨ m' = m := by
      by_cases hpos : 0 < totalBytesCompact dest.schema
      · obtain ⟨m'', bs, e1, _, _, _, e5⟩ := compactTo_block dest new m hd.readable (good_nil m) (by simp [new, owned, ownPtr]) hpos
        rw [k1] at e1
        injection e1 with e1
        injection e1 with e1 e2
        subst e1
        exact .inl ⟨hpos, e2, e5⟩
      · exact .inr (compactTo_zero hd.readable (by omega) k1)
    have hfrees : ∀ m2 m3 k, n'.reset m2 = .ok (m3, k) → ∀ q ∈ owned n', ¬ Live m3 q.blk := by
      intro m2 m3 k hk q hq
      rcases hcase with ⟨c1, c2, _⟩ | c
      · rw [c2] at hk hq
        rw [owned_walk_true, List.mem_singleton] at hq
        subst hq
        exact reset_dead c1 hk
      · have h1 := f3 q hq
        have h2 := owned_lt f2 q hq
        rw [c] at h2
        omega
    have hcover : ∀ b, m.length ≤ b → b < m'.length → ∃ q ∈ owned n', q.blk = b := by
      intro b hb1 hb2
      rcases hcase with ⟨_, c2, c3⟩ | c
      · exact ⟨⟨m.length, 0⟩, by rw [c2, owned_walk_true]; simp, by simp only; omega⟩
      · rw [c] at hb2; omega
    refine ⟨m', ⟨n', n'.info.data, 0, _, true⟩, by rw [k1, bind_ok], hwith,
      ⟨r1, by rw [r2]; exact hdd, rfl, k3.readable, hrun, f2, k3.readable, ?_, fun _ => ⟨p, al, _, hw⟩, ?_, ?_, ?_, hfrees⟩, k3.val, hfoot, hcover⟩
    · show blankS n'.schema = _
      rw [k2]; exact blankS_compactAt _ _
    · intro q hq hh
      have := k3.blocks _ hh; have := hod q hq; omega
    · intro q hq
      have := f3 q hq
      refine ⟨fun hh => by have := hbd _ hh; omega, fun hh => ?_⟩
      obtain ⟨q', hq', he⟩ := List.mem_map.1 hh
      have := hod q' hq'; omega
    · intro a ha b hb blk i h1 h2
      have := k3.blocks _ (has_blocks n' a ha blk i h1)
      have := hbd _ (has_blocks dest b hb blk i h2)
      omega

def items (rs : List Request) (ds : List Node) : List Item := (rs.zip ds).map fun x => ⟨x.1, x.2⟩

theorem pair_foot {c c' : Node} (h : Pair c c') (b : Nat) (i : Int) (h1 : Foot c b i) : ¬ Foot c' b i := by
  rintro h2
  rcases h1 with h1 | ⟨p1, a1, a2⟩
  · obtain ⟨q, hq, rfl⟩ := List.mem_map.1 h1
    rcases h2 with h2 | ⟨p2, b1, b2⟩
    · obtain ⟨q', hq', he⟩ := List.mem_map.1 h2
      exact h.own q hq q' hq' he.symm
    · exact h.cross.1 q hq (has_blocks c' p2 b1 _ i b2)
  · rcases h2 with h2 | ⟨p2, b1, b2⟩
    · obtain ⟨q', hq', rfl⟩ := List.mem_map.1 h2
      exact h.cross.2 q' hq' (has_blocks c p1 a1 _ i a2)
    · exact h.share p1 a1 p2 b1 b i a2 b2

theorem foot_lt {m : Mem} {n : Node} (h : Ready m n) {b : Nat} {i : Int} (hf : Foot n b i) : b < m.length := by
  rcases hf with h' | ⟨pl, h1, h2⟩
  · obtain ⟨q, hq, rfl⟩ := List.mem_map.1 h'
    exact owned_lt h.good q hq
  · exact blocks_lt _ h.readable b (has_blocks _ pl h1 b i h2)

theorem posted_lt {m : Mem} {x : Item} (h : Posted m x) {b : Nat} {i : Int} (hf : Foot x.req.buf b i) : b < m.length := by
  rcases hf with h' | ⟨pl, h1, h2⟩
  · obtain ⟨q, hq, rfl⟩ := List.mem_map.1 h'
    exact owned_lt h.good q hq
  · exact blocks_lt _ h.rdb b (has_blocks _ pl h1 b i h2)

/-- a list of new receives -/
structure AllPosted (m m' : Mem) (ds : List Node) (rs : List Request) : Prop where
  within : Within m m' []
  len : rs.length = ds.length
  posted : ∀ x ∈ items rs ds, Posted m' x ∧ x.dest ∈ ds ∧ val m' (tgt x) = val m x.dest ∧ ∀ b i, Foot x.req.buf b i → m.length ≤ b
  sep : (items rs ds).Pairwise Sep
  cover : ∀ b, m.length ≤ b → b < m'.length → ∃ x ∈ items rs ds, ∃ q ∈ owned x.req.buf, q.blk = b

theorem irecvAll_ok {base : Nat → Int} : ∀ (ds : List Node) (m : Mem), (∀ d ∈ ds, Ready m d ∧ DistinctV (val m d) ∧
      (d.schema.isCompact = true → isContiguous base d = true → OneRun base d) ∧ totalBytesCompact d.schema < 2 ^ 31) → ds.Pairwise Pair →
    ∃ m' rs, irecvAll base ds m = .ok (m', rs) ∧ AllPosted m m' ds rs
  | [], m, _, _ => ⟨m, [], rfl, Within.refl _ _, rfl, by simp [items], .nil, fun b h1 h2 => by omega⟩
  | d :: ds, m, h, hp => by
    rw [List.pairwise_cons] at hp
    obtain ⟨a1, a2, a3, a4⟩ := h d (by simp)
    obtain ⟨m1, r, i1, i2, i3, i4, i5, i6⟩ := irecv_ok a1 a2 a3 a4
    have hk : ∀ e ∈ ds, Ready m1 e ∧ val m1 e = val m e := fun e he => keep_ready i2 (by simp) (h e (by simp [he])).1
    obtain ⟨m2, rs, j1, j2⟩ := irecvAll_ok ds m1 (fun e he => by
      obtain ⟨b1, b2, b3, b4⟩ := h e (by simp [he])
      exact ⟨(hk e he).1, by rw [(hk e he).2]; exact b2, b3, b4⟩) hp.2
    obtain ⟨q1, q2⟩ := keep_item j2.within (y := ⟨r, d⟩) (by simp) i3
    have hl := i2.len
    refine ⟨m2, r :: rs, ?_, i2.trans j2.within (by simp) (by simp), by simp [j2.len], ?_, ?_, ?_⟩
    · rw [irecvAll, i1, bind_ok, j1, bind_ok]
    · intro x hx
      rw [items, List.zip_cons_cons, List.map_cons, List.mem_cons] at hx
      rcases hx with rfl | hx
      · exact ⟨q1, by simp, by rw [q2, i4], i5⟩
      · obtain ⟨c1, c2, c3, c4⟩ := j2.posted x hx
        exact ⟨c1, by simp [c2], by rw [c3, (hk _ c2).2], fun b i hf => by have := c4 b i hf; omega⟩
    · rw [items, List.zip_cons_cons, List.map_cons, List.pairwise_cons]
      refine ⟨fun y hy => ?_, j2.sep⟩
      obtain ⟨c1, c2, c3, c4⟩ := j2.posted y hy
      have hpair := hp.1 _ c2
      have hyd : ∀ b i, Foot y.dest b i → b < m.length := fun b i hf => foot_lt (h _ (by simp [c2])).1 hf
      have hxd : ∀ b i, Foot d b i → b < m.length := fun b i hf => foot_lt a1 hf
      have hxb : ∀ b i, Foot r.buf b i → b < m1.length := fun b i hf => posted_lt i3 hf
      refine ⟨⟨⟨?_, ?_⟩, ⟨?_, ?_⟩⟩, ⟨⟨?_, ?_⟩, ⟨?_, ?_⟩⟩⟩
      · intro b i h1 h2; exact pair_foot hpair b i h1 h2
      · intro b i h1 h2; have := hyd b i h2; have := i5 b i h1; omega
      · intro b i h1 h2; have := hxd b i h1; have := c4 b i h2; omega
      · intro b i h1 h2; have := hxb b i h1; have := c4 b i h2; omega
      · intro b i h1 h2; exact pair_foot hpair b i h2 h1
      · intro b i h1 h2; have := hxd b i h2; have := c4 b i h1; omega
      · intro b i h1 h2; have := hyd b i h1; have := i5 b i h2; omega
      · intro b i h1 h2; have := hxb b i h2; have := c4 b i h1; omega
    · intro b hb1 hb2
      rw [items, List.zip_cons_cons, List.map_cons]
      by_cases hb : b < m1.length
      · obtain ⟨q, hq, he⟩ := i6 b hb1 hb
        exact ⟨_, List.mem_cons_self, q, hq, he⟩
      · obtain ⟨x, hx, hh⟩ := j2.cover b (by omega) hb2
        exact ⟨x, List.mem_cons_of_mem _ hx, hh⟩

theorem distinct_children {m : Mem} {x : Info} {ds : List Node} (h : DistinctV (val m (.lst x ds))) : ∀ d ∈ ds, DistinctV (val m d) := by
  rw [val, DistinctV] at h
  induction ds with
  | nil => simp
  | cons d ds ih =>
    rw [valL, DistinctVL] at h
    intro e he
    rcases List.mem_cons.1 he with rfl | he
    · exact h.1
    · exact ih h.2 e he

/-- other memory is allocated -/
theorem within_more (m more : Mem) : Within m (m ++ more) [] := by
  have hget : ∀ b, b < m.length → (m ++ more : Mem)[b]? = m[b]? := fun b hb => List.getElem?_append_left hb
  refine ⟨by rw [List.length_append]; omega, fun b i hb _ => ?_, fun b hb _ hl => ?_⟩
  · unfold Mem.byte
    rw [hget b hb]
  · obtain ⟨bs, h⟩ := hl
    exact ⟨bs, by rw [hget b hb]; exact h⟩

theorem pack_items : ∀ (rs : List Request) (ds : List Node) (msgs : List (List UInt8)), pack ((items rs ds).zip msgs) = rs.zip (msgs.zip ds)
  | [], _, _ => by simp [items, pack]
  | _ :: _, [], _ => by simp [items, pack]
  | _ :: _, _ :: _, [] => by simp [items, pack]
  | r :: rs, d :: ds, g :: msgs => by
    have := pack_items rs ds msgs
    simp only [items, pack] at this ⊢
    simp [this]

theorem dest_items : ∀ (rs : List Request) (ds : List Node) (msgs : List (List UInt8)), rs.length = ds.length →
    ((items rs ds).zip msgs).map (fun x => (x.1.dest, x.2)) = ds.zip msgs
  | [], [], _, _ => by simp [items]
  | _ :: _, _ :: _, [], _ => by simp [items]
  | r :: rs, d :: ds, g :: msgs, h => by
    have := dest_items rs ds msgs (by simpa using h)
    simp only [items] at this ⊢
    simp [this]

end Relay
end Conduit
