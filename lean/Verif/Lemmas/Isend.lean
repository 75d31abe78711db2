import Verif.Lemmas.Irecv
namespace Conduit
namespace Relay
open Spec Spec.Tree Schema Node

/-- the elements of a node that is one run are read -/
theorem load_run {t : Node} {m : Mem} {p : Option Ptr} {o : Int} (hr : Readable m t) (h : RunAt t p o) :
    ∃ msg, m.load p o (totalBytesCompact t.schema).toNat = .ok msg ∧ msg.map some = flat (val m t) ∧
      (msg.length : Int) = totalBytesCompact t.schema := by
  obtain ⟨bs, b1, b2⟩ := flat_bytes_exist hr
  have hf := h.flat m hr
  have hlen : (flat (val m t)).length = bs.length := by rw [← b1, List.length_map]
  have hb : ∀ k : Nat, k < bs.length → m.byteAt p (o + k) = bs[k]? := by
    intro k hk
    have := congrArg (fun l => l[k]?) (b1.trans hf)
    simp only [List.getElem?_map] at this
    rw [List.getElem?_range (by omega), List.getElem?_eq_getElem hk] at this
    simp only [Option.map_some, Option.some.injEq] at this
    rw [← this, List.getElem?_eq_getElem hk]
  rw [← b2, Int.toNat_natCast]
  rcases Nat.eq_zero_or_pos bs.length with h0 | hp
  · have hbs : bs = [] := List.eq_nil_of_length_eq_zero h0
    subst hbs
    exact ⟨[], by cases p <;> rfl, b1, rfl⟩
  · obtain ⟨q, rfl⟩ : ∃ q, p = some q := by
      have := hb 0 hp
      rw [List.getElem?_eq_getElem hp] at this
      cases p with
      | none => simp [Mem.byteAt] at this
      | some q => exact ⟨q, rfl⟩
    have hb' : ∀ k : Nat, k < bs.length → m.byte q.blk (q.off + o + k) = bs[k]? := by
      intro k hk
      rw [← hb k hk, show q.off + o + (k : Int) = q.off + (o + k) by omega]
      rfl
    obtain ⟨bs', l1, l2, l3⟩ := Mem.load_ok (m := m) (q := q) (off := o) (len := bs.length) (by
      intro k hk
      rw [hb' k hk, List.getElem?_eq_getElem hk]; rfl)
    have : bs' = bs := by
      apply List.ext_getElem?
      intro i
      by_cases hi : i < bs.length
      · rw [l3 i hi]; exact hb' i hi
      · rw [List.getElem?_eq_none (by omega), List.getElem?_eq_none (by omega)]
    subst this
    exact ⟨bs', l1, b1, rfl⟩

/-- what is sent: the node itself or a copy of it -/
structure Sending (m m1 : Mem) (n : Node) (r : Request) (t : Node) : Prop where
  size : r.size = totalBytesCompact t.schema
  rd : Readable m1 t
  run : RunAt t r.data r.off
  value : val m1 t = val m n
  good : GoodOwners m1 (owned r.buf)
  new : ∀ q ∈ owned r.buf, m.length ≤ q.blk
  keep : ∀ b i, b < m.length → m1.byte b i = m.byte b i
  len : m.length ≤ m1.length
  /-- what was allocated is freed -/
  freed : ∀ m' m2 k, r.buf.reset m' = .ok (m2, k) → ∀ b, m.length ≤ b → b < m1.length → ¬ Live m2 b

theorem isend_ok {base : Nat → Int} {n : Node} {m : Mem} (hr : Readable m n)
    (h1 : n.schema.isCompact = true → isContiguous base n = true → OneRun base n) (h2 : totalBytesCompact n.schema < 2 ^ 31) :
    ∃ m1 r t, isend base n m = .ok (m1, r) ∧ Sending m m1 n r t ∧ ((ownData base n).isSome = true → t = n) ∧
      (ownData base n = none → ∀ b ∈ blocks t, m.length ≤ b) := by
  have ht := total_nonneg _ (countsOK_of hr)
  unfold isend
  simp only [castInt_small ht h2]
  rw [if_neg (by omega)]
  cases ho : ownData base n with
  | some x =>
    obtain ⟨p, o⟩ := x
    obtain ⟨c1, c2, c3⟩ := own_some ho
    have hrun : RunAt n p o := by
      obtain ⟨q, rfl, _, hq⟩ := run_flat (h1 c1 c2) c2 c3
      refine ⟨fun m hr => (hq m hr).trans ?_, fun q' hq' m i i1 i2 => ?_⟩
      · apply List.map_congr_left
        intro k _
        simp only [Mem.byteAt]
        congr 1
        omega
      · injection hq' with hq'
        subst hq'
        exact .inr (run_place (m := m) (h1 c1 c2) c2 c3 i i1 i2)
    exact ⟨m, ⟨Node.new, p, o, _, false⟩, n, rfl, ⟨rfl, hr, hrun, rfl, good_nil m, by simp [Node.new, owned, ownPtr], fun _ _ _ => rfl, Nat.le_refl _,
      fun _ _ _ _ b h1 h2 => by omega⟩, fun _ => rfl, by simp⟩
  | none =>
    obtain ⟨m', n', k1, k2, k3⟩ := compactTo_copied n Node.new m hr (good_nil m) (by simp [Node.new, owned, ownPtr])
    obtain ⟨p, al, hw⟩ := compactTo_walk n Node.new m m' n' k1
    obtain ⟨f1, f2, f3⟩ := k3.fresh clean_new
    have hrun : RunAt n' n'.info.data 0 := by
      rw [hw, info_walk]
      refine ⟨fun m2 _ => ?_, fun q hq m2 i i1 i2 => ?_⟩
      · have := flat_walk_compact m2 p al n.schema 0 (countsOK_of hr)
        rw [show n.schema.compactTo = compactAt n.schema 0 from rfl]
        rw [this]
        unfold Spec.run
        simp [Function.comp_def]
      · simp only at hq
        have hpos : 0 < totalBytesCompact n.schema := by
          have hl : (Spec.flat (val m2 (walk p al n.schema.compactTo))).length = (totalBytesCompact n.schema).toNat := by
            rw [show n.schema.compactTo = compactAt n.schema 0 from rfl,
              flat_walk_compact m2 p al n.schema 0 (countsOK_of hr)]
            simp [Spec.run]
          omega
        obtain ⟨m'', bs, e1, _⟩ := compactTo_block n Node.new m hr (good_nil m) (by simp [Node.new, owned, ownPtr]) hpos
        rw [k1] at e1
        injection e1 with e1
        injection e1 with e1 e2
        have : owned n' = [⟨m.length, 0⟩] := by rw [e2]; exact owned_walk_true _ _
        rw [← hw, Foot, this]
        have hi : n'.info.data = some ⟨m.length, 0⟩ := by rw [e2, info_walk]
        rw [hw, info_walk] at hi
        simp only at hi
        rw [hq] at hi
        injection hi with hi
        rw [hi]
        exact .inl (by simp)
    have hval : (totalBytesCompact n'.schema) = totalBytesCompact n.schema := by
      have e := flat_total k3.readable
      rw [k3.val, flat_total hr] at e
      exact e.symm
    have hfreed : ∀ m3 m2 k, n'.reset m3 = .ok (m2, k) → ∀ b, m.length ≤ b → b < m'.length → ¬ Live m2 b := by
      intro m3 m2 k hk b hb1 hb2
      by_cases hpos : 0 < totalBytesCompact n.schema
      · obtain ⟨m'', bs, e1, _, _, _, e5⟩ := compactTo_block n Node.new m hr (good_nil m) (by simp [Node.new, owned, ownPtr]) hpos
        rw [k1] at e1
        injection e1 with e1
        injection e1 with e1 e2
        subst e1
        have hbe : b = m.length := by omega
        subst hbe
        rw [e2] at hk
        exact reset_dead hpos hk
      · exfalso
        have hz : totalBytesCompact n.schema = 0 := by omega
        have hk1 := k1
        unfold Node.compactTo at hk1
        obtain ⟨m4, g1, g2⟩ := reset_spec Node.new m (good_nil m)
        have hm4 : m4 = m := by
          apply List.ext_getElem?
          intro i
          exact g2.2 i (by simp [Node.new, owned, ownPtr])
        subst hm4
        rw [g1, bind_ok] at hk1
        simp only [hz] at hk1
        rw [if_neg (by decide)] at hk1
        rw [(compactWrite_zero _ true n 0 m4 hr hz).1, bind_ok] at hk1
        injection hk1 with hk1
        injection hk1 with hk1 _
        subst hk1
        omega
    refine ⟨m', ⟨n', n'.info.data, 0, _, false⟩, n', by rw [k1, bind_ok], ⟨hval.symm, k3.readable, hrun, k3.val, f2, f3,
      fun b i hb => (k3.frame.2 b hb (by simp [Node.new, owned, ownPtr])).2 i, k3.frame.1, hfreed⟩, by simp, fun _ => k3.blocks⟩

/-- memory in which the bytes of what is sent are as they were -/
theorem sending_load {m m1 m' : Mem} {n t : Node} {r : Request} (h : Sending m m1 n r t) (hs : Same m1 m' t) :
    ∃ msg, inFlight r m' = .ok msg ∧ msg.map some = flat (val m n) := by
  obtain ⟨msg, a1, a2, _⟩ := load_run (readable_same t hs h.rd) h.run
  refine ⟨msg, by unfold inFlight; rw [h.size]; exact a1, ?_⟩
  rw [a2, val_same t hs, h.value]

end Relay
end Conduit
