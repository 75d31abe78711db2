import Verif.Lemmas.GenNode
import Verif.Spec.SetSchema
namespace Conduit
open Spec Spec.Tree Schema Node Gen

/-! ### the copying walk without data -/

/-- the running offset only decides the offset of a leaf -/
theorem leafDtype_off {ms : List (Str × JV)} {off : Int} {d : DataType} (h : leafDtype ms off = .ok d) (off' : Int) :
    ∃ d', leafDtype ms off' = .ok d' ∧ d'.compactTo = d.compactTo := by
  have hu : ∀ o, u64Member ms (chars! "offset") off = .ok o → ∃ o', u64Member ms (chars! "offset") off' = .ok o' := by
    intro o ho
    unfold u64Member at ho ⊢
    cases hl : ms.lookup (chars! "offset") with
    | none => exact ⟨_, rfl⟩
    | some v => rw [hl] at ho; exact ⟨o, ho⟩
  unfold leafDtype at h ⊢
  split at h
  · rename_i name hname
    cases h1 : lengthMember ms with
    | error => rw [h1] at h; cases h
    | ub => rw [h1] at h; cases h
    | ok len =>
      rw [h1, bind_ok] at h
      cases h2 : leafName name with
      | error => rw [h2] at h; cases h
      | ub => rw [h2] at h; cases h
      | ok t =>
        rw [h2, bind_ok] at h
        cases h3 : u64Member ms (chars! "offset") off with
        | error => rw [h3] at h; cases h
        | ub => rw [h3] at h; cases h
        | ok o =>
          obtain ⟨o', ho'⟩ := hu o h3
          rw [h3, bind_ok] at h
          cases h4 : u64Member ms (chars! "stride") t.bytes with
          | error => rw [h4] at h; cases h
          | ub => rw [h4] at h; cases h
          | ok st =>
            rw [h4, bind_ok] at h
            cases h5 : u64Member ms (chars! "element_bytes") t.bytes with
            | error => rw [h5] at h; cases h
            | ub => rw [h5] at h; cases h
            | ok el =>
              rw [h5, bind_ok] at h
              cases h6 : endianMember ms with
              | error => rw [h6] at h; cases h
              | ub => rw [h6] at h; cases h
              | ok en =>
                rw [h6, bind_ok] at h
                injection h with h
                subst h
                simp only [h1, h2, h4, h5, h6, ho', bind_ok]
                exact ⟨_, rfl, rfl⟩
  · cases h

theorem elems_zero {m : Mem} {p : Option Ptr} {d : DataType}
    (h : ∀ i k : Nat, i < d.n.toNat → k < d.id.bytes → m.byteAt p (d.offset + d.stride * i + k) = some 0) :
    elems m p d = List.replicate d.n.toNat (List.replicate d.id.bytes (some 0)) := by
  unfold elems
  apply List.ext_getElem (by simp)
  intro i h1 h2
  apply List.ext_getElem (by simp)
  intro k h3 h4
  simp at h1 h3 ⊢
  exact h i k (by omega) (by simpa using h3)

theorem zeros_none {d : DataType} (h : ¬ DataId d.id) (m : Mem) (p : Option Ptr) :
    view m p (Tree.setDtype d) = zeros (Tree.setDtype d) := by
  rcases not_dataId h with h | h | h <;> simp [Tree.setDtype, h, view, zeros, viewE, viewL, zerosE, zerosL]

theorem zeros_compact {d : DataType} (h : ¬ DataId d.id) :
    zeros (Tree.setDtype d.compactTo) = zeros (Tree.setDtype d) := by
  rcases not_dataId h with h | h | h <;> simp [Tree.setDtype, h, zeros, zerosE, zerosL, DataType.compactTo]

/-- a leaf with explicit properties: an own block of zeros -/
theorem leafData_null (src : DataType) (x : Info) (m : Mem) (hx : x.alloced = false)
    (hc : CountsOK (Tree.setDtype src)) :
    ∃ m' n, leafData false none src x m = .ok (m', n) ∧ Built (fun _ => False) m m' (zeros (Tree.setDtype src)) n := by
  by_cases h : DataId src.id
  · rw [setDtype_leaf h] at hc ⊢
    have hn : 0 ≤ src.n := hc src (by simp [leaves])
    have hsp : src.compactTo.spannedBytes.toNat = src.id.bytes * src.n.toNat := by
      rw [spanned_compact]
      obtain ⟨k, hk⟩ : ∃ k : Nat, src.n = k := ⟨src.n.toNat, by omega⟩
      rw [hk, ← Int.natCast_mul, Int.toNat_natCast, Int.toNat_natCast]
    have hsp0 : 0 ≤ src.compactTo.spannedBytes := by
      rw [spanned_compact]; exact Int.mul_nonneg (by omega) hn
    have hin := init_empty_data x src.compactTo m h hsp0
    rw [hsp] at hin
    have hel : elems (m.alloc (src.id.bytes * src.n.toNat)).1 (some ⟨m.length, 0⟩) src.compactTo =
        List.replicate src.n.toNat (List.replicate src.id.bytes (some 0)) := by
      refine elems_zero ?_
      intro i k hi hk
      have hk : k < src.id.bytes := hk
      have hi : i < src.n.toNat := hi
      simp only [Mem.byteAt, DataType.compactTo]
      rw [Mem.byte_alloc_new, if_pos]
      have h1 : src.id.bytes * (i + 1) ≤ src.id.bytes * src.n.toNat := Nat.mul_le_mul_left _ hi
      rw [Nat.mul_add] at h1
      have : 0 ≤ (src.id.bytes : Int) * i := Int.mul_nonneg (by omega) (by omega)
      rw [← Int.natCast_mul] at this ⊢
      constructor <;> omega
    refine ⟨(m.alloc (src.id.bytes * src.n.toNat)).1, .leaf ⟨some ⟨m.length, 0⟩, true⟩ src.compactTo, ?_, ⟨?_, ?_, ?_, ?_, ?_⟩⟩
    · rw [leafData, if_neg (by simp), hin, bind_ok]
    · simp only [Spec.val, zeros]
      rw [if_neg (by exact h.1), if_neg h.1, hel]; rfl
    · refine ⟨h.2.1, h.2.2, hn, fun _ => ?_⟩
      intro e he b hb
      have he : e ∈ elems (m.alloc (src.id.bytes * src.n.toNat)).1 (some ⟨m.length, 0⟩) src.compactTo := he
      rw [hel] at he
      rw [List.eq_of_mem_replicate he] at hb
      rw [List.eq_of_mem_replicate hb]; rfl
    · intro b hb'
      simp only [Spec.blocks] at hb'
      split at hb'
      · simp at hb'
      · simp at hb'; omega
    · refine ⟨by simp [Mem.alloc], fun b hb _ => ⟨Mem.size_alloc_old _ _ _ hb, fun i => Mem.byte_alloc_old _ _ _ _ hb⟩⟩
    · refine ⟨⟨by simp [CleanInfo], fun he => absurd he h.1⟩, ⟨by simp [owned, ownPtr], ?_⟩, by simp [owned, ownPtr]⟩
      intro p hp
      simp only [owned, ownPtr, if_true, Option.toList, List.mem_singleton] at hp
      subst hp
      exact ⟨rfl, live_iff.2 (by simp [Mem.size, Mem.alloc])⟩
  · obtain ⟨n, h1, h2⟩ := init_empty_none x src.compactTo m h
    obtain ⟨g1, _, _⟩ := built_none (fun _ => False) x src.compactTo m none hx h n h2 (by
      intro he
      have he : src.id = .empty := he
      have : Tree.setDtype src = .leaf src := by unfold Tree.setDtype; rw [he]
      rw [this] at hc
      exact hc src (by simp [leaves]))
    rw [zeros_none (by exact h), zeros_compact h] at g1
    exact ⟨m, n, by rw [leafData, if_neg (by simp), h1, bind_ok], g1⟩

theorem counts_compact {d d' : DataType} (h : d'.compactTo = d.compactTo) :
    (CountsOK (Tree.setDtype d) → CountsOK (Tree.setDtype d')) ∧ zeros (Tree.setDtype d') = zeros (Tree.setDtype d) := by
  have h1 : d'.id = d.id := congrArg (fun d => d.id) h
  have h2 : d'.n = d.n := congrArg (fun d => d.n) h
  have h3 : d'.endian = d.endian := congrArg (fun d => d.endian) h
  by_cases hd : DataId d.id
  · rw [setDtype_leaf hd, setDtype_leaf (by rw [h1]; exact hd)]
    exact ⟨fun hc e he => by
      simp only [leaves, List.mem_singleton] at he
      rw [he, h2]; exact hc d (by simp [leaves]), by simp [zeros, h1, h2, h3]⟩
  · rcases not_dataId hd with hd | hd | hd
    · have e1 : Tree.setDtype d = .leaf d := by simp [Tree.setDtype, hd]
      have e2 : Tree.setDtype d' = .leaf d' := by simp [Tree.setDtype, h1, hd]
      rw [e1, e2]
      exact ⟨fun hc e he => by
        simp only [leaves, List.mem_singleton] at he
        rw [he, h2]; exact hc d (by simp [leaves]), by simp [zeros, h1, h2, h3]⟩
    · simp [Tree.setDtype, h1, hd]
    · simp [Tree.setDtype, h1, hd]

def NullClaim (L : Lib) (big : Bool) (v : JV) : Prop :=
  NoInline v → Regular v → Explicit v → ∀ init x off off' m s, walkS v init off = .ok s → x.alloced = false →
    CountsOK s → ∃ m' n, walkN L big false none v x off' m = .ok (m', n) ∧ Built (fun _ => False) m m' (zeros s) n

theorem null_seq (L : Lib) (big : Bool) : ∀ (ms : List (Str × JV)) (off off' : Int) (m : Mem) (cs : List (Str × Schema)),
    (∀ e ∈ ms, NullClaim L big e.2) → (∀ e ∈ ms, NoInline e.2) → (∀ e ∈ ms, Regular e.2) → (∀ e ∈ ms, Explicit e.2) →
    SeqS off ms cs → CountsOK (.obj cs) →
    ∃ m' ns, SeqN L big false none off' m ms m' ns ∧ BuiltE (fun _ => False) m m' (zerosE cs) ns
  | [], off, off', m, cs, _, _, _, _, h, _ => by
    cases h
    exact ⟨m, [], ⟨rfl, rfl⟩, BuiltE.nil _ m⟩
  | (n, v) :: ms, off, off', m, cs, hc, hi, hr, hx, h, hn => by
    obtain ⟨c, cs', rfl, h1, h2⟩ := h
    obtain ⟨n1, n2⟩ := countsE hn
    obtain ⟨m1, k, k1, k2⟩ := hc (n, v) (by simp) (hi _ (by simp)) (hr _ (by simp)) (hx _ (by simp)) _ {} off off' m c h1 rfl n1
    obtain ⟨m2, ns, l1, l2⟩ := null_seq L big ms _ (advance none off' k) m1 cs'
      (fun e he => hc e (by simp [he])) (fun e he => hi e (by simp [he])) (fun e he => hr e (by simp [he]))
      (fun e he => hx e (by simp [he])) h2 n2
    exact ⟨m2, (n, k) :: ns, ⟨k, ns, m1, rfl, k1, l1⟩, BuiltE.cons n k2 l2⟩

theorem null_seqL (L : Lib) (big : Bool) : ∀ (ms : List JV) (off off' : Int) (m : Mem) (cs : List Schema),
    (∀ e ∈ ms, NullClaim L big e) → (∀ e ∈ ms, NoInline e) → (∀ e ∈ ms, Regular e) → (∀ e ∈ ms, Explicit e) →
    SeqSL off ms cs → CountsOK (.lst cs) →
    ∃ m' ns, SeqNL L big false none off' m ms m' ns ∧ BuiltL (fun _ => False) m m' (zerosL cs) ns
  | [], off, off', m, cs, _, _, _, _, h, _ => by
    cases h
    exact ⟨m, [], ⟨rfl, rfl⟩, BuiltL.nil _ m⟩
  | v :: ms, off, off', m, cs, hc, hi, hr, hx, h, hn => by
    obtain ⟨c, cs', rfl, h1, h2⟩ := h
    obtain ⟨n1, n2⟩ := countsL hn
    obtain ⟨m1, k, k1, k2⟩ := hc v (by simp) (hi _ (by simp)) (hr _ (by simp)) (hx _ (by simp)) _ {} off off' m c h1 rfl n1
    obtain ⟨m2, ns, l1, l2⟩ := null_seqL L big ms _ (advance none off' k) m1 cs'
      (fun e he => hc e (by simp [he])) (fun e he => hi e (by simp [he])) (fun e he => hr e (by simp [he]))
      (fun e he => hx e (by simp [he])) h2 n2
    exact ⟨m2, k :: ns, ⟨k, ns, m1, rfl, k1, l1⟩, BuiltL.cons k2 l2⟩

mutual
theorem null_walk (L : Lib) (big : Bool) : ∀ v : JV, NullClaim L big v
  | .obj ms => by
    intro hi hr he init x off off' m s h hx hn
    rcases walkS_obj hr h with ⟨name, d, h1, h2, rfl⟩ | ⟨ds, k, hk, h1, h2, cs, rfl, h3⟩ | ⟨h1, h2, es, rfl, h3⟩
    · obtain ⟨i1, i2⟩ := (allLeaves_leaf h1).1 hi
      obtain ⟨d', e1, e2⟩ := leafDtype_off h2 off'
      obtain ⟨c1, c2⟩ := counts_compact e2
      obtain ⟨m', n, k1, k2⟩ := leafData_null d' x m hx (c1 hn)
      refine ⟨m', n, ?_, by rw [← c2]; exact k2⟩
      rw [walkN, h1]
      simp only [leafExplicit]
      rw [e1, bind_ok, i2]
      simp only
      rw [k1, bind_ok, i1]
    · have hm := mem_of_lookup h1
      have hd : ∀ name, ms.lookup (chars! "dtype") ≠ some (.str name) := by rw [h1]; simp
      obtain ⟨m', ns, l1, l2⟩ := null_seqL L big (List.replicate k (.obj ds)) off off' m cs
        (fun e he => by rw [List.eq_of_mem_replicate he]; exact null_walkM L big ms _ hm)
        (fun e he => by rw [List.eq_of_mem_replicate he]; exact allLeavesM_mem (allLeaves_members hi hd) _ hm)
        (fun e he => by rw [List.eq_of_mem_replicate he]; exact regular_members hr hd _ hm)
        (fun e h' => by rw [List.eq_of_mem_replicate h']; exact allLeavesM_mem (allLeaves_members he hd) _ hm) h3 hn
      refine ⟨m', .lst x ns, ?_, l2.lst x hx⟩
      rw [walkN, h1]
      simp only
      rw [listOf_N h2, lookup_walkNM, h1]
      simp only [Option.map_some]
      rw [if_neg (by omega), Int.toNat_natCast, walkNL_replicate, lstLoopN_seq L big false none _ _ _ _ _ _ l1]
      simp [Res.map']
    · have hd : ∀ name, ms.lookup (chars! "dtype") ≠ some (.str name) := by rw [h1]; simp
      obtain ⟨m', ns, l1, l2⟩ := null_seq L big ms off off' m es (null_walkM L big ms)
        (allLeavesM_mem (allLeaves_members hi hd)) (regular_members hr hd)
        (allLeavesM_mem (allLeaves_members he hd)) h3 hn
      refine ⟨m', .obj x ns, ?_, l2.obj x hx⟩
      rw [walkN, h1]
      simp only
      rw [objLoopN_seq L big false none ms [] ns off' m m' (by simpa using h2) l1]
      simp [Res.map']
  | .arr vs => by
    intro hi hr he init x off off' m s h hx hn
    rw [walkS] at h
    obtain ⟨cs, h1, rfl⟩ := map'_ok_iff.1 h
    obtain ⟨rest, h2, h3⟩ := lstLoop_seq _ _ _ _ h1
    simp at h2
    subst h2
    obtain ⟨m', ns, l1, l2⟩ := null_seqL L big vs off off' m _ (null_walkL L big vs)
      (allLeavesL_mem.1 hi) (regularL_mem.1 hr) (allLeavesL_mem.1 he) h3 hn
    refine ⟨m', .lst x ns, ?_, l2.lst x hx⟩
    rw [walkN, lstLoopN_seq L big false none vs [] ns off' m m' l1]
    simp [Res.map']
  | .str t => by intro _ _ h; exact absurd h id
  | .null => by intro _ _ _ _ _ _ _ _ _ h; rw [walkS] at h; cases h
  | .bool _ => by intro _ _ _ _ _ _ _ _ _ h; rw [walkS] at h; cases h
  | .int _ => by intro _ _ _ _ _ _ _ _ _ h; rw [walkS] at h; cases h
  | .real _ => by intro _ _ _ _ _ _ _ _ _ h; rw [walkS] at h; cases h
theorem null_walkM (L : Lib) (big : Bool) : ∀ ms : List (Str × JV), ∀ e ∈ ms, NullClaim L big e.2
  | [], e, he => by simp at he
  | (n, v) :: ms, e, he => by
    rcases List.mem_cons.1 he with rfl | he
    · exact null_walk L big v
    · exact null_walkM L big ms e he
theorem null_walkL (L : Lib) (big : Bool) : ∀ ms : List JV, ∀ e ∈ ms, NullClaim L big e
  | [], e, he => by simp at he
  | v :: ms, e, he => by
    rcases List.mem_cons.1 he with h | he
    · rw [h]; exact null_walk L big v
    · exact null_walkL L big ms e he
end

end Conduit
