import Verif.Spec.GenNode
import Verif.Lemmas.Base64Json
import Verif.Lemmas.NodeSet
namespace Conduit
open Spec Spec.Tree Schema Node Gen

/-- a node built from a document -/
structure Built (A : Nat → Prop) (m m' : Mem) (v : Val) (n : Node) : Prop where
  val : val m' n = v
  readable : Readable m' n
  blocks : ∀ b ∈ blocks n, m.length ≤ b ∨ A b
  frame : Frame m m' []
  fresh : Fresh m m' n

theorem setDtype_leaf {d : DataType} (h : DataId d.id) : Tree.setDtype d = .leaf d := by
  unfold Tree.setDtype
  split
  · rename_i h'; exact absurd h' h.2.1
  · rename_i h'; exact absurd h' h.2.2
  · rfl

theorem not_dataId {t : TypeId} (h : ¬ DataId t) : t = .empty ∨ t = .object ∨ t = .list := by
  unfold DataId at h
  by_cases h1 : t = .empty
  · exact .inl h1
  · by_cases h2 : t = .object
    · exact .inr (.inl h2)
    · by_cases h3 : t = .list
      · exact .inr (.inr h3)
      · exact absurd ⟨h1, h2, h3⟩ h

theorem frame_refl (m : Mem) : Frame m m [] := (Rel.refl m []).frame

/-- `init` of an empty node with a number or string type -/
theorem init_empty_data (x : Info) (d : DataType) (m : Mem) (h : DataId d.id) (hs : 0 ≤ d.spannedBytes) :
    (Node.leaf x {}).init d m =
      .ok ((m.alloc d.spannedBytes.toNat).1, .leaf ⟨some ⟨m.length, 0⟩, true⟩ d) := by
  have hc : (Node.leaf x {}).dtype.compatible d = false := by
    have : (TypeId.empty == d.id) = false := by simp; exact fun e => h.1 e.symm
    simp [dtype, DataType.compatible, this]
  have hr : (Node.leaf x {}).releaseMem m = .ok m := by simp [releaseMem, freeOwn]
  have hi : (Node.leaf x {}).releasedInfo = x := by simp [releasedInfo, info, dtype]
  have hd : (d.id != .object && d.id != .list && d.id != .empty) = true := by simp [h.1, h.2.1, h.2.2]
  rw [init, if_neg (by simp [hc])]
  simp only [hr, hi, bind_ok, info]
  have : ∀ (b : Bool), (if b = true then (Res.ok (m, x) : Res (Mem × Info)) else .ok (m, x)) = .ok (m, x) := by
    intro b; cases b <;> rfl
  rw [this, bind_ok, if_pos hd]
  simp only
  rw [allocate, if_neg (by omega), ofDtype_leaf _ _ h]
  simp [Mem.alloc]

/-- `init` of an empty node with a type that has no data -/
theorem init_empty_none (x : Info) (d : DataType) (m : Mem) (h : ¬ DataId d.id) :
    ∃ n, (Node.leaf x {}).init d m = .ok (m, n) ∧ (n = .leaf x {} ∧ d.id = .empty ∨ n = ofDtype x d) := by
  have hr : (Node.leaf x {}).releaseMem m = .ok m := by simp [releaseMem, freeOwn]
  have hi : (Node.leaf x {}).releasedInfo = x := by simp [releasedInfo, info, dtype]
  have hd : (d.id != .object && d.id != .list && d.id != .empty) = false := by
    rcases not_dataId h with h | h | h <;> simp [h]
  have : ∀ (b : Bool), (if b = true then (Res.ok (m, x) : Res (Mem × Info)) else .ok (m, x)) = .ok (m, x) := by
    intro b; cases b <;> rfl
  by_cases hc : (Node.leaf x {}).dtype.compatible d = true
  · refine ⟨_, by rw [init, if_pos hc], .inl ⟨rfl, ?_⟩⟩
    simp [dtype, DataType.compatible] at hc
    exact hc.1.1.symm
  · refine ⟨_, ?_, .inr rfl⟩
    rw [init, if_neg hc]
    simp only [hr, hi, bind_ok, info]
    rw [this, bind_ok, if_neg (by simp [hd])]

/-- a node without data -/
theorem built_none (A : Nat → Prop) (x : Info) (d : DataType) (m : Mem) (p : Option Ptr) (hx : x.alloced = false) (h : ¬ DataId d.id)
    (n : Node) (hn : n = .leaf x {} ∧ d.id = .empty ∨ n = ofDtype x d) (hc : d.id = .empty → 0 ≤ d.n) :
    Built A m m (view m p (Tree.setDtype d)) n ∧ n.schema.totalStridedBytes = 0 ∧
      totalBytesCompact (Tree.setDtype d) = 0 := by
  have ho : ownPtr x = [] := by simp [ownPtr, hx]
  have hci : CleanInfo x := by simp [CleanInfo, hx]
  rcases not_dataId h with h | h | h
  · have e1 : Tree.setDtype d = .leaf d := by unfold Tree.setDtype; rw [h]
    have e2 : n = .leaf x {} ∨ n = .leaf x d := by
      rcases hn with ⟨hn, _⟩ | hn
      · exact .inl hn
      · right; rw [hn]; unfold ofDtype; rw [h]
    rw [e1]
    rcases e2 with rfl | rfl
    · exact ⟨⟨by simp [Spec.val, view, h], by simp [Readable], by simp [Spec.blocks], frame_refl m,
        ⟨⟨hci, fun _ => hx⟩, by rw [owned, ho]; exact good_nil m, by simp [owned, ho]⟩⟩,
        by simp [Node.schema, totalStridedBytes], by simp [totalBytesCompact, h]⟩
    · exact ⟨⟨by simp [Spec.val, view, h], ⟨by simp [h], by simp [h], hc h, by simp [h]⟩, by simp [Spec.blocks, h],
        frame_refl m, ⟨⟨hci, fun _ => hx⟩, by rw [owned, ho]; exact good_nil m, by simp [owned, ho]⟩⟩,
        by simp [Node.schema, totalStridedBytes, h], by simp [totalBytesCompact, h]⟩
  · have e1 : Tree.setDtype d = .obj [] := by unfold Tree.setDtype; rw [h]
    have e2 : n = .obj x [] := by
      rcases hn with ⟨_, hn⟩ | hn
      · rw [h] at hn; cases hn
      · rw [hn]; unfold ofDtype; rw [h]
    subst e2
    rw [e1]
    exact ⟨⟨by simp [Spec.val, view, valE, viewE], by simp [Readable, ReadableE], by simp [Spec.blocks, blocksE], frame_refl m,
      ⟨⟨hci, by simp [CleanE]⟩, by simp only [owned, ho, ownedE]; exact good_nil m, by simp [owned, ho, ownedE]⟩⟩,
      by simp [Node.schema, schemaE, totalStridedBytes, totalStridedBytesE], by simp [totalBytesCompact, totalBytesCompactE]⟩
  · have e1 : Tree.setDtype d = .lst [] := by unfold Tree.setDtype; rw [h]
    have e2 : n = .lst x [] := by
      rcases hn with ⟨_, hn⟩ | hn
      · rw [h] at hn; cases hn
      · rw [hn]; unfold ofDtype; rw [h]
    subst e2
    rw [e1]
    exact ⟨⟨by simp [Spec.val, view, valL, viewL], by simp [Readable, ReadableL], by simp [Spec.blocks, blocksL], frame_refl m,
      ⟨⟨hci, by simp [CleanL]⟩, by simp only [owned, ho, ownedL]; exact good_nil m, by simp [owned, ho, ownedL]⟩⟩,
      by simp [Node.schema, schemaL, totalStridedBytes, totalStridedBytesL], by simp [totalBytesCompact, totalBytesCompactL]⟩

theorem spanned_compact (d : DataType) : d.compactTo.spannedBytes = d.id.bytes * d.n := by
  simp only [DataType.spannedBytes, DataType.compactTo, Int.mul_sub]; omega

theorem strided_compact (d : DataType) : d.compactTo.stridedBytes = d.id.bytes * d.n := by
  simp only [DataType.stridedBytes, DataType.compactTo, Int.mul_sub]; omega

/-- the copying walk at a leaf: an own block with the elements -/
theorem leafData_copy (A : Nat → Prop) (q : Ptr) (src : DataType) (x : Info) (m : Mem) (hx : x.alloced = false)
    (hr : Readable m (walk (some q) false (Tree.setDtype src))) :
    ∃ m' n, leafData false (some q) src x m = .ok (m', n) ∧
      Built A m m' (view m (some q) (Tree.setDtype src)) n ∧
      n.schema.totalStridedBytes = totalBytesCompact (Tree.setDtype src) := by
  by_cases h : DataId src.id
  · rw [setDtype_leaf h] at hr ⊢
    simp only [walk, Readable] at hr
    obtain ⟨-, -, hn, hr⟩ := hr
    have hr := elems_isSome.1 (hr h.1)
    have hb : 0 < src.id.bytes := bytes_pos h.1 h.2.1 h.2.2
    have hsp : src.compactTo.spannedBytes.toNat = src.id.bytes * src.n.toNat := by
      rw [spanned_compact]
      obtain ⟨k, hk⟩ : ∃ k : Nat, src.n = k := ⟨src.n.toNat, by omega⟩
      rw [hk, ← Int.natCast_mul, Int.toNat_natCast, Int.toNat_natCast]
    have hsp0 : 0 ≤ src.compactTo.spannedBytes := by
      rw [spanned_compact]; exact Int.mul_nonneg (by omega) hn
    have hin := init_empty_data x src.compactTo m h hsp0
    rw [hsp] at hin
    have hnew : ∀ i : Int, (m.alloc (src.id.bytes * src.n.toNat)).1.byte m.length i =
        if 0 ≤ i ∧ i < (src.id.bytes * src.n.toNat : Nat) then some 0 else none := Mem.byte_alloc_new _ _
    have hlt : ∀ e k : Nat, e < src.n.toNat → k < src.id.bytes →
        (src.id.bytes : Int) * e + k < (src.id.bytes * src.n.toNat : Nat) := by
      intro e k he hk
      have : src.id.bytes * (e + 1) ≤ src.id.bytes * src.n.toNat := Nat.mul_le_mul_left _ he
      rw [Nat.mul_add] at this
      rw [← Int.natCast_mul]; omega
    have hql : ∀ e k : Nat, e < src.n.toNat → k < src.id.bytes → q.blk < m.length := by
      intro e k he hk
      exact Mem.byte_lt (hr e k (by omega) hk)
    obtain ⟨m2, c1, c2, c3, c4⟩ := Mem.stridedCopy_spec ⟨m.length, 0⟩ q src.id.bytes src.id.bytes src.stride src.n.toNat
      (m.alloc (src.id.bytes * src.n.toNat)).1 0 src.offset
      (by
        intro e k he hk
        rw [Mem.byte_alloc_old _ _ _ _ (hql e k he hk)]
        have := hr e k (by omega) hk
        simp only [Mem.byteAt] at this
        rw [show q.off + src.offset + src.stride * e + k = q.off + (src.offset + src.stride * e + k) by omega]
        exact this)
      (by
        intro e k he hk
        simp only
        rw [hnew, if_pos]
        · rfl
        · have := hlt e k he hk
          have : 0 ≤ (src.id.bytes : Int) * e := Int.mul_nonneg (by omega) (by omega)
          constructor <;> omega)
      (by
        intro hq i hi
        obtain ⟨e, he, _⟩ := hi
        have := hql e 0 he hb
        simp only at hq
        omega)
      (Mem.apart_of_le (Int.le_refl _))
    have hold : ∀ b, b < m.length → m2.size b = m.size b ∧ ∀ i, m2.byte b i = m.byte b i := by
      intro b hbl
      refine ⟨?_, fun i => ?_⟩
      · rw [c2.2, Mem.size_alloc_old _ _ _ hbl]
      · rw [c3 b i (fun hh => by simp only at hh; omega), Mem.byte_alloc_old _ _ _ _ hbl]
    have hlen : m2.length = m.length + 1 := by rw [c2.1]; simp [Mem.alloc]
    have hel : elems m2 (some ⟨m.length, 0⟩) src.compactTo = elems m (some q) src := by
      refine elems_congr rfl rfl ?_
      intro i k hi hk
      have hi' : i < src.n.toNat := by omega
      have := c4 i k hi' hk
      simp only [Mem.byteAt]
      simp only [DataType.compactTo] at hk ⊢
      rw [show (0 : Int) + (0 + (src.id.bytes : Int) * i + k) = 0 + 0 + (src.id.bytes : Int) * i + k by omega, this,
        Mem.byte_alloc_old _ _ _ _ (hql i k hi' hk)]
      congr 1; omega
    have hfr : Frame m m2 [] := ⟨by omega, fun b hb' _ => hold b hb'⟩
    refine ⟨m2, .leaf ⟨some ⟨m.length, 0⟩, true⟩ src.compactTo, ?_, ⟨?_, ?_, ?_, hfr, ?_⟩, ?_⟩
    · rw [leafData, if_neg (by simp), hin, bind_ok]
      simp only [info]
      rw [if_neg (by omega), c1, bind_ok]
    · simp only [Spec.val, view]
      rw [if_neg h.1, if_neg (by exact h.1), hel]; rfl
    · refine ⟨h.2.1, h.2.2, hn, fun _ => ?_⟩
      rw [hel]
      exact elems_isSome.2 hr
    · intro b hb'
      simp only [Spec.blocks] at hb'
      split at hb'
      · simp at hb'
      · simp at hb'; omega
    · refine ⟨⟨by simp [CleanInfo], fun he => absurd he h.1⟩, ⟨by simp [owned, ownPtr], ?_⟩, by simp [owned, ownPtr]⟩
      intro p hp
      simp only [owned, ownPtr, if_true, Option.toList, List.mem_singleton] at hp
      subst hp
      refine ⟨rfl, live_iff.2 ?_⟩
      rw [c2.2]
      simp [Mem.size, Mem.alloc]
    · simp only [Node.schema, totalStridedBytes, totalBytesCompact]
      rw [if_neg (by exact h.1), if_neg h.1, strided_compact, DataType.bytesCompact]
  · obtain ⟨n, h1, h2⟩ := init_empty_none x src.compactTo m h
    have hb0 : src.id.bytes = 0 := by rcases not_dataId h with h | h | h <;> rw [h] <;> rfl
    have hk : Tree.setDtype src.compactTo = .leaf src.compactTo ∧ Tree.setDtype src = .leaf src ∨
        Tree.setDtype src.compactTo = Tree.setDtype src := by
      rcases not_dataId h with h | h | h
      · left; constructor <;> (unfold Tree.setDtype; simp [DataType.compactTo, h])
      · right; unfold Tree.setDtype; simp [DataType.compactTo, h]
      · right; unfold Tree.setDtype; simp [DataType.compactTo, h]
    have hc : src.compactTo.id = .empty → 0 ≤ src.compactTo.n := by
      intro he
      have he : src.id = .empty := he
      have : Tree.setDtype src = .leaf src := by unfold Tree.setDtype; rw [he]
      rw [this] at hr
      exact hr.2.2.1
    obtain ⟨g1, g2, g3⟩ := built_none A x src.compactTo m (some q) hx h n h2 hc
    have hv : view m (some q) (Tree.setDtype src.compactTo) = view m (some q) (Tree.setDtype src) := by
      rcases hk with ⟨k1, k2⟩ | k
      · rw [k1, k2]
        have : src.id = .empty := by
          rcases not_dataId h with h | h | h
          · exact h
          · rw [show Tree.setDtype src = .obj [] by unfold Tree.setDtype; rw [h]] at k2; cases k2
          · rw [show Tree.setDtype src = .lst [] by unfold Tree.setDtype; rw [h]] at k2; cases k2
        simp [view, DataType.compactTo, this]
      · rw [k]
    have ht : totalBytesCompact (Tree.setDtype src) = 0 := by
      rcases not_dataId h with h | h | h <;> simp [Tree.setDtype, h, totalBytesCompact, totalBytesCompactE, totalBytesCompactL]
    refine ⟨m, n, ?_, by rw [← hv]; exact g1, by rw [g2, ht]⟩
    rw [leafData, if_neg (by simp), h1, bind_ok]
    simp only
    rw [if_neg (by simp [hb0]), Mem.stridedCopy_zero _ _ _ _ _ _ _ _ _ (.inr hb0), bind_ok]

/-! ### the loops -/

/-- the children a Schema walk makes of members -/
def SeqS : Int → List (Str × JV) → List (Str × Schema) → Prop
  | _, [], cs => cs = []
  | off, (n, v) :: ms, cs => ∃ c cs', cs = (n, c) :: cs' ∧ walkS v (.obj []) off = .ok c ∧
      SeqS (off + totalStridedBytes c) ms cs'

def SeqSL : Int → List JV → List Schema → Prop
  | _, [], cs => cs = []
  | off, v :: vs, cs => ∃ c cs', cs = c :: cs' ∧ walkS v (.lst []) off = .ok c ∧
      SeqSL (off + totalStridedBytes c) vs cs'

theorem objLoop_seq : ∀ (ms : List (Str × JV)) (es es' : List (Str × Schema)) (off : Int),
    (es.map (·.1) ++ ms.map (·.1)).Nodup → objLoop es off (walkSM ms) = .ok es' →
    ∃ rest, es' = es ++ rest ∧ SeqS off ms rest
  | [], es, es', off, _, h => by
    simp only [walkSM, objLoop] at h
    cases h
    exact ⟨[], by simp, rfl⟩
  | (n, v) :: ms, es, es', off, hn, h => by
    simp only [walkSM, objLoop] at h
    split at h <;> try (cases h; done)
    rename_i c hc
    have hni : n ∉ es.map (·.1) := by
      intro hi
      rw [List.nodup_append] at hn
      exact hn.2.2 n hi n (by simp) rfl
    rw [putChild, if_neg hni] at h
    obtain ⟨rest, h1, h2⟩ := objLoop_seq ms _ _ _ (by simpa using hn) h
    exact ⟨(n, c) :: rest, by simp [h1], c, rest, rfl, hc, h2⟩

theorem lstLoop_seq : ∀ (vs : List JV) (es es' : List Schema) (off : Int),
    lstLoop es off (walkSL vs) = .ok es' → ∃ rest, es' = es ++ rest ∧ SeqSL off vs rest
  | [], es, es', off, h => by
    simp only [walkSL, lstLoop] at h
    cases h
    exact ⟨[], by simp, rfl⟩
  | v :: vs, es, es', off, h => by
    simp only [walkSL, lstLoop] at h
    split at h <;> try (cases h; done)
    rename_i c hc
    obtain ⟨rest, h1, h2⟩ := lstLoop_seq vs _ _ _ h
    exact ⟨c :: rest, by simp [h1], c, rest, rfl, hc, h2⟩

/-- the children a Node walk makes of members -/
def SeqN (L : Lib) (big ext : Bool) (q : Option Ptr) : Int → Mem → List (Str × JV) → Mem → List (Str × Node) → Prop
  | _, m, [], m', cs => cs = [] ∧ m' = m
  | off, m, (n, v) :: ms, m', cs => ∃ c cs' m1, cs = (n, c) :: cs' ∧ walkN L big ext q v {} off m = .ok (m1, c) ∧
      SeqN L big ext q (advance q off c) m1 ms m' cs'

def SeqNL (L : Lib) (big ext : Bool) (q : Option Ptr) : Int → Mem → List JV → Mem → List Node → Prop
  | _, m, [], m', cs => cs = [] ∧ m' = m
  | off, m, v :: ms, m', cs => ∃ c cs' m1, cs = c :: cs' ∧ walkN L big ext q v {} off m = .ok (m1, c) ∧
      SeqNL L big ext q (advance q off c) m1 ms m' cs'

theorem objLoopN_seq (L : Lib) (big ext : Bool) (q : Option Ptr) : ∀ (ms : List (Str × JV)) (es rest : List (Str × Node)) (off : Int)
    (m m' : Mem), (es.map (·.1) ++ ms.map (·.1)).Nodup → SeqN L big ext q off m ms m' rest →
    objLoopN q es off m (walkNM L big ext q ms) = .ok (m', es ++ rest)
  | [], es, rest, off, m, m', _, h => by
    obtain ⟨rfl, rfl⟩ := h
    simp [walkNM, objLoopN]
  | (n, v) :: ms, es, rest, off, m, m', hn, h => by
    obtain ⟨c, cs', m1, rfl, h1, h2⟩ := h
    have hni : n ∉ es.map (·.1) := by
      intro hi
      rw [List.nodup_append] at hn
      exact hn.2.2 n hi n (by simp) rfl
    simp only [walkNM, objLoopN]
    rw [if_neg hni, h1]
    simp only
    rw [objLoopN_seq L big ext q ms _ _ _ _ _ (by simpa using hn) h2]
    simp

theorem lstLoopN_seq (L : Lib) (big ext : Bool) (q : Option Ptr) : ∀ (ms : List JV) (es rest : List Node) (off : Int)
    (m m' : Mem), SeqNL L big ext q off m ms m' rest →
    lstLoopN q es off m (walkNL L big ext q ms) = .ok (m', es ++ rest)
  | [], es, rest, off, m, m', h => by
    obtain ⟨rfl, rfl⟩ := h
    simp [walkNL, lstLoopN]
  | v :: ms, es, rest, off, m, m', h => by
    obtain ⟨c, cs', m1, rfl, h1, h2⟩ := h
    simp only [walkNL, lstLoopN]
    rw [h1]
    simp only
    rw [lstLoopN_seq L big ext q ms _ _ _ _ _ h2]
    simp

theorem lookup_walkSM (k : Str) : ∀ ms : List (Str × JV), (walkSM ms).lookup k = (ms.lookup k).map walkS
  | [] => rfl
  | (n, v) :: ms => by
    simp only [walkSM, List.lookup_cons]
    split
    · rfl
    · exact lookup_walkSM k ms

theorem lookup_walkNM (L : Lib) (big ext : Bool) (p : Option Ptr) (k : Str) : ∀ ms : List (Str × JV),
    (walkNM L big ext p ms).lookup k = (ms.lookup k).map (fun v => walkN L big ext p v {})
  | [] => rfl
  | (n, v) :: ms => by
    simp only [walkNM, List.lookup_cons]
    split
    · rfl
    · exact lookup_walkNM L big ext p k ms

theorem walkSL_replicate (v : JV) : ∀ k : Nat, List.replicate k (walkS v) = walkSL (List.replicate k v)
  | 0 => rfl
  | k + 1 => by rw [List.replicate_succ, List.replicate_succ, walkSL, walkSL_replicate v k]

theorem walkNL_replicate (L : Lib) (big ext : Bool) (p : Option Ptr) (v : JV) : ∀ k : Nat,
    List.replicate k (walkN L big ext p v {}) = walkNL L big ext p (List.replicate k v)
  | 0 => rfl
  | k + 1 => by rw [List.replicate_succ, List.replicate_succ, walkNL, walkNL_replicate L big ext p v k]

theorem allLeavesM_mem {P : List (Str × JV) → Prop} {Q : Str → Prop} : ∀ {ms : List (Str × JV)}, AllLeavesM P Q ms →
    ∀ e ∈ ms, AllLeaves P Q e.2
  | [], _, e, he => by simp at he
  | (n, v) :: ms, h, e, he => by
    rcases List.mem_cons.1 he with rfl | he
    · exact h.1
    · exact allLeavesM_mem h.2 e he

theorem allLeavesL_mem {P : List (Str × JV) → Prop} {Q : Str → Prop} : ∀ {vs : List JV},
    AllLeavesL P Q vs ↔ ∀ v ∈ vs, AllLeaves P Q v
  | [] => by simp [AllLeavesL]
  | v :: vs => by simp [AllLeavesL, allLeavesL_mem (vs := vs)]

/-! ### packed documents -/

theorem leafDtype_natural {ms : List (Str × JV)} {off : Int} {d : DataType} (h : leafDtype ms off = .ok d)
    (hn : NaturalMembers ms) : d.stride = d.id.bytes ∧ d.ele = d.id.bytes := by
  unfold leafDtype at h
  split at h
  · rename_i name hname
    cases h1 : lengthMember ms with
    | error => rw [h1] at h; cases h
    | ub => rw [h1] at h; cases h
    | ok len =>
      rw [h1, bind_ok] at h
      cases h2 : leafName name with
      | error => rw [h2] at h; cases h
      | ub => rw [h2] at h; cases h
      | ok t =>
        rw [h2, bind_ok] at h
        obtain ⟨g1, g2⟩ := hn name t hname h2
        have key : ∀ k, MemberIs ms k t.bytes → u64Member ms k t.bytes = .ok (t.bytes : Int) := by
          intro k hk
          unfold u64Member
          rcases hk with hk | hk
          · rw [hk]
          · rw [hk]
            have : (t.bytes : Int) < 2 ^ 63 := by cases t <;> decide
            simp only [getU64]
            rw [if_pos (by omega), toIndex, if_pos this]
        cases h3 : u64Member ms (chars! "offset") off with
        | error => rw [h3] at h; cases h
        | ub => rw [h3] at h; cases h
        | ok o =>
          rw [h3, bind_ok, key _ g1, bind_ok, key _ g2, bind_ok] at h
          cases h4 : endianMember ms with
          | error => rw [h4] at h; cases h
          | ub => rw [h4] at h; cases h
          | ok e =>
            rw [h4, bind_ok] at h
            injection h with h
            subst h
            exact ⟨rfl, rfl⟩
  · cases h

theorem packed_leaf {d : DataType} (h : d.stride = d.id.bytes ∧ d.ele = d.id.bytes) :
    totalStridedBytes (Tree.setDtype d) = totalBytesCompact (Tree.setDtype d) := by
  by_cases hd : DataId d.id
  · rw [setDtype_leaf hd]
    simp only [totalStridedBytes, totalBytesCompact]
    rw [if_neg hd.1, if_neg hd.1, DataType.stridedBytes, DataType.bytesCompact, h.1, h.2, Int.mul_sub]; omega
  · rcases not_dataId hd with h | h | h <;>
      simp [Tree.setDtype, h, totalBytesCompact, totalBytesCompactE, totalBytesCompactL, totalStridedBytes,
        totalStridedBytesE, totalStridedBytesL]

/-- the three shapes of an object in a schema document -/
theorem walkS_obj {ms : List (Str × JV)} {init : Schema} {off : Int} {s : Schema} (hr : Regular (.obj ms))
    (h : walkS (.obj ms) init off = .ok s) :
    (∃ name d, ms.lookup (chars! "dtype") = some (.str name) ∧ leafDtype ms off = .ok d ∧ s = Tree.setDtype d) ∨
    (∃ ds, ∃ k : Nat, 1 ≤ k ∧ ms.lookup (chars! "dtype") = some (.obj ds) ∧ listOfLength ms = .ok k ∧
      ∃ cs, s = .lst cs ∧ SeqSL off (List.replicate k (.obj ds)) cs) ∨
    (ms.lookup (chars! "dtype") = none ∧ (ms.map (·.1)).Nodup ∧ ∃ es, s = .obj es ∧ SeqS off ms es) := by
  rw [walkS] at h
  rw [Regular] at hr
  split at h
  · rename_i ds hds
    rw [hds] at hr
    simp only at hr
    right; left
    rw [lookup_walkSM, hds] at h
    simp only [Option.map_some] at h
    split at h <;> try (cases h; done)
    rename_i len f hlen hf
    cases hf
    have hpos : 1 ≤ len := by
      unfold listOfLength at hlen
      split at hlen
      · cases hlen; omega
      · cases hlen
      · rename_i v hv hnn
        unfold getInt at hlen
        split at hlen
        · split at hlen <;> cases hlen
          exact hr.1 _ hnn
        · cases hlen
        · cases hlen
    rw [if_neg (by omega), walkSL_replicate] at h
    obtain ⟨cs, h1, rfl⟩ := map'_ok_iff.1 h
    obtain ⟨rest, h2, h3⟩ := lstLoop_seq _ _ _ _ h1
    obtain ⟨k, hk⟩ : ∃ k : Nat, len = k := ⟨len.toNat, by omega⟩
    subst hk
    rw [Int.toNat_natCast] at h3
    exact ⟨ds, k, by omega, hds, hlen, cs, rfl, by simp at h2; rw [h2]; exact h3⟩
  · rename_i v hv hd
    left
    obtain ⟨d, h1, rfl⟩ := map'_ok_iff.1 h
    have := h1
    unfold leafDtype at this
    split at this
    · rename_i name hname
      exact ⟨name, d, hname, h1, rfl⟩
    · cases this
  · rename_i hd
    right; right
    rw [hd] at hr
    simp only at hr
    obtain ⟨es, h1, rfl⟩ := map'_ok_iff.1 h
    obtain ⟨rest, h2, h3⟩ := objLoop_seq ms [] es off (by simpa using hr.1) h1
    exact ⟨hd, hr.1, es, rfl, by simp at h2; rw [h2]; exact h3⟩

theorem regularM_mem : ∀ {ms : List (Str × JV)}, RegularM ms → ∀ e ∈ ms, Regular e.2
  | [], _, e, he => by simp at he
  | (n, v) :: ms, h, e, he => by
    rcases List.mem_cons.1 he with rfl | he
    · exact h.1
    · exact regularM_mem h.2 e he

theorem regularL_mem : ∀ {ms : List JV}, RegularL ms ↔ ∀ e ∈ ms, Regular e
  | [] => by simp [RegularL]
  | v :: ms => by simp [RegularL, regularL_mem (ms := ms)]

theorem regular_members {ms : List (Str × JV)} (h : Regular (.obj ms))
    (hd : ∀ name, ms.lookup (chars! "dtype") ≠ some (.str name)) : ∀ e ∈ ms, Regular e.2 := by
  rw [Regular] at h
  split at h
  · rename_i s hs; exact absurd hs (hd s)
  · exact regularM_mem h.2
  · exact regularM_mem h.2

theorem allLeaves_members {P : List (Str × JV) → Prop} {Q : Str → Prop} {ms : List (Str × JV)} (h : AllLeaves P Q (.obj ms))
    (hd : ∀ name, ms.lookup (chars! "dtype") ≠ some (.str name)) : AllLeavesM P Q ms := by
  rw [AllLeaves] at h
  split at h
  · rename_i s hs; exact absurd hs (hd s)
  · exact h

theorem allLeaves_leaf {P : List (Str × JV) → Prop} {Q : Str → Prop} {ms : List (Str × JV)} {name : Str}
    (hd : ms.lookup (chars! "dtype") = some (.str name)) : AllLeaves P Q (.obj ms) ↔ P ms := by
  rw [AllLeaves]
  rw [hd]

/-- a packed document gives a packed schema -/
def PackClaim (v : JV) : Prop := Regular v → Packed v → ∀ init off s, walkS v init off = .ok s →
  totalStridedBytes s = totalBytesCompact s

theorem pack_seq : ∀ (ms : List (Str × JV)) (off : Int) (cs : List (Str × Schema)), (∀ e ∈ ms, PackClaim e.2) →
    (∀ e ∈ ms, Regular e.2) → (∀ e ∈ ms, Packed e.2) → SeqS off ms cs →
    totalStridedBytesE cs = totalBytesCompactE cs
  | [], off, cs, _, _, _, h => by cases h; rfl
  | (n, v) :: ms, off, cs, hc, hr, hp, h => by
    obtain ⟨c, cs', rfl, h1, h2⟩ := h
    have := hc (n, v) (by simp) (hr (n, v) (by simp)) (hp (n, v) (by simp)) _ _ _ h1
    have := pack_seq ms _ cs' (fun e he => hc e (by simp [he])) (fun e he => hr e (by simp [he]))
      (fun e he => hp e (by simp [he])) h2
    simp only [totalStridedBytesE, totalBytesCompactE]; omega

theorem pack_seqL : ∀ (ms : List JV) (off : Int) (cs : List Schema), (∀ e ∈ ms, PackClaim e) →
    (∀ e ∈ ms, Regular e) → (∀ e ∈ ms, Packed e) → SeqSL off ms cs →
    totalStridedBytesL cs = totalBytesCompactL cs
  | [], off, cs, _, _, _, h => by cases h; rfl
  | v :: ms, off, cs, hc, hr, hp, h => by
    obtain ⟨c, cs', rfl, h1, h2⟩ := h
    have := hc v (by simp) (hr v (by simp)) (hp v (by simp)) _ _ _ h1
    have := pack_seqL ms _ cs' (fun e he => hc e (by simp [he])) (fun e he => hr e (by simp [he]))
      (fun e he => hp e (by simp [he])) h2
    simp only [totalStridedBytesL, totalBytesCompactL]; omega

mutual
theorem packed_walkS : ∀ v : JV, PackClaim v
  | .obj ms => by
    intro hr hp init off s h
    rcases walkS_obj hr h with ⟨name, d, h1, h2, rfl⟩ | ⟨ds, k, hk, h1, h2, cs, rfl, h3⟩ | ⟨h1, h2, es, rfl, h3⟩
    · exact packed_leaf (leafDtype_natural h2 ((allLeaves_leaf h1).1 hp))
    · have hm := mem_of_lookup h1
      have hd : ∀ name, ms.lookup (chars! "dtype") ≠ some (.str name) := by rw [h1]; simp
      simp only [totalStridedBytes, totalBytesCompact]
      refine pack_seqL _ off cs ?_ ?_ ?_ h3
      · intro e he; rw [List.eq_of_mem_replicate he]; exact packed_walkSM ms _ hm
      · intro e he; rw [List.eq_of_mem_replicate he]; exact regular_members hr hd _ hm
      · intro e he; rw [List.eq_of_mem_replicate he]; exact allLeavesM_mem (allLeaves_members hp hd) _ hm
    · have hd : ∀ name, ms.lookup (chars! "dtype") ≠ some (.str name) := by rw [h1]; simp
      simp only [totalStridedBytes, totalBytesCompact]
      exact pack_seq ms off es (packed_walkSM ms) (regular_members hr hd) (allLeavesM_mem (allLeaves_members hp hd)) h3
  | .arr vs => by
    intro hr hp init off s h
    rw [walkS] at h
    obtain ⟨cs, h1, rfl⟩ := map'_ok_iff.1 h
    obtain ⟨rest, h2, h3⟩ := lstLoop_seq _ _ _ _ h1
    simp at h2
    subst h2
    simp only [totalStridedBytes, totalBytesCompact]
    exact pack_seqL vs off _ (packed_walkSL vs) (regularL_mem.1 hr) (allLeavesL_mem.1 hp) h3
  | .str t => by
    intro hr hp init off s h
    rw [walkS] at h
    obtain ⟨d, h1, rfl⟩ := map'_ok_iff.1 h
    apply packed_leaf
    unfold leafDtypeName at h1
    cases h2 : leafName t with
    | error => rw [h2] at h1; cases h1
    | ub => rw [h2] at h1; cases h1
    | ok id => rw [h2, bind_ok] at h1; injection h1 with h1; subst h1; exact ⟨rfl, rfl⟩
  | .null => by intro _ _ _ _ _ h; rw [walkS] at h; cases h
  | .bool _ => by intro _ _ _ _ _ h; rw [walkS] at h; cases h
  | .int _ => by intro _ _ _ _ _ h; rw [walkS] at h; cases h
  | .real _ => by intro _ _ _ _ _ h; rw [walkS] at h; cases h
theorem packed_walkSM : ∀ ms : List (Str × JV), ∀ e ∈ ms, PackClaim e.2
  | [], e, he => by simp at he
  | (n, v) :: ms, e, he => by
    rcases List.mem_cons.1 he with rfl | he
    · exact packed_walkS v
    · exact packed_walkSM ms e he
theorem packed_walkSL : ∀ ms : List JV, ∀ e ∈ ms, PackClaim e
  | [], e, he => by simp at he
  | v :: ms, e, he => by
    rcases List.mem_cons.1 he with h | he
    · rw [h]; exact packed_walkS v
    · exact packed_walkSL ms e he
end

/-! ### the copying walk -/

theorem steadyA_mem : ∀ {ms : List (Str × JV)}, SteadyA ms → ∀ e ∈ ms, Steady e.2
  | [], _, e, he => by simp at he
  | (n, v) :: ms, h, e, he => by
    rcases List.mem_cons.1 he with rfl | he
    · exact h.1
    · exact steadyA_mem h.2 e he

theorem anchored_leaf {ms : List (Str × JV)} (h : (ms.lookup (chars! "offset")).isSome) (off off' : Int) :
    leafDtype ms off' = leafDtype ms off := by
  have : u64Member ms (chars! "offset") off' = u64Member ms (chars! "offset") off := by
    unfold u64Member
    cases hl : ms.lookup (chars! "offset") with
    | none => rw [hl] at h; simp at h
    | some v => rfl
  unfold leafDtype
  rw [this]

theorem listOf_N {ms : List (Str × JV)} {k : Int} (h : listOfLength ms = .ok k) : listOfLengthN ms = .ok k := by
  unfold listOfLength at h
  unfold listOfLengthN
  split at h
  · rename_i hl; rw [hl]; exact h
  · cases h
  · rename_i v hv hl
    rw [hl]
    split
    · rename_i hh; cases hh
    · rename_i rs hh; cases hh; exact absurd rfl (hv rs)
    · rename_i hh; cases hh; exact h

/-- What the copying walk makes of a document. `A`: the blocks of the caller a leaf may stay on. -/
def CopyClaim (L : Lib) (big : Bool) (q : Ptr) (A : Nat → Prop) (v : JV) : Prop :=
  NoInline v → Regular v → Steady v → (A q.blk ∨ Explicit v) →
  ∀ init x off off' m s, walkS v init off = .ok s → (off' = off ∨ Anchored v) → x.alloced = false →
    Readable m (walk (some q) false s) →
    ∃ m' n, walkN L big false (some q) v x off' m = .ok (m', n) ∧ Built A m m' (view m (some q) s) n ∧
      totalStridedBytes n.schema = totalBytesCompact s

/-- the parts of `Built` for children -/
structure BuiltE (A : Nat → Prop) (m m' : Mem) (v : List (Str × Val)) (n : List (Str × Node)) : Prop where
  val : valE m' n = v
  readable : ReadableE m' n
  blocks : ∀ b ∈ blocksE n, m.length ≤ b ∨ A b
  frame : Frame m m' []
  clean : CleanE n
  good : GoodOwners m' (ownedE n)
  new : ∀ p ∈ ownedE n, m.length ≤ p.blk
structure BuiltL (A : Nat → Prop) (m m' : Mem) (v : List Val) (n : List Node) : Prop where
  val : valL m' n = v
  readable : ReadableL m' n
  blocks : ∀ b ∈ blocksL n, m.length ≤ b ∨ A b
  frame : Frame m m' []
  clean : CleanL n
  good : GoodOwners m' (ownedL n)
  new : ∀ p ∈ ownedL n, m.length ≤ p.blk

theorem BuiltE.nil (A : Nat → Prop) (m : Mem) : BuiltE A m m [] [] :=
  ⟨rfl, trivial, by simp [blocksE], frame_refl m, trivial, good_nil m, by simp [ownedE]⟩
theorem BuiltL.nil (A : Nat → Prop) (m : Mem) : BuiltL A m m [] [] :=
  ⟨rfl, trivial, by simp [blocksL], frame_refl m, trivial, good_nil m, by simp [ownedL]⟩

theorem BuiltE.cons {A : Nat → Prop} {m m1 m2 : Mem} {v : Val} {vs : List (Str × Val)} {c : Node} {cs : List (Str × Node)}
    (n : Str) (h : Built A m m1 v c) (h' : BuiltE A m1 m2 vs cs) : BuiltE A m m2 ((n, v) :: vs) ((n, c) :: cs) := by
  have ag := h'.frame.agree (blocks_lt c h.readable) (by simp)
  obtain ⟨f1, f2, f3⟩ := h.fresh
  have hl := h.frame.1
  refine ⟨by simp only [valE, h'.val, val_agree c ag, h.val], ⟨(readable_agree c ag).2 h.readable, h'.readable⟩, ?_,
    h.frame.trans h'.frame, ⟨f1, h'.clean⟩, ?_, ?_⟩
  · intro b hb
    simp only [blocksE, List.mem_append] at hb
    rcases hb with hb | hb
    · exact h.blocks b hb
    · rcases h'.blocks b hb with hb | hb
      · left; omega
      · exact .inr hb
  · refine good_append (h'.frame.good f2 (by simp)) h'.good ?_
    intro p hp q hq
    have h1 := live_lt (f2.2 p hp).2
    have h2 := h'.new q hq
    omega
  · intro p hp
    rcases List.mem_append.1 hp with hp | hp
    · exact f3 p hp
    · have := h'.new p hp; omega

theorem BuiltL.cons {A : Nat → Prop} {m m1 m2 : Mem} {v : Val} {vs : List Val} {c : Node} {cs : List Node}
    (h : Built A m m1 v c) (h' : BuiltL A m1 m2 vs cs) : BuiltL A m m2 (v :: vs) (c :: cs) := by
  have ag := h'.frame.agree (blocks_lt c h.readable) (by simp)
  obtain ⟨f1, f2, f3⟩ := h.fresh
  have hl := h.frame.1
  refine ⟨by simp only [valL, h'.val, val_agree c ag, h.val], ⟨(readable_agree c ag).2 h.readable, h'.readable⟩, ?_,
    h.frame.trans h'.frame, ⟨f1, h'.clean⟩, ?_, ?_⟩
  · intro b hb
    simp only [blocksL, List.mem_append] at hb
    rcases hb with hb | hb
    · exact h.blocks b hb
    · rcases h'.blocks b hb with hb | hb
      · left; omega
      · exact .inr hb
  · refine good_append (h'.frame.good f2 (by simp)) h'.good ?_
    intro p hp q hq
    have h1 := live_lt (f2.2 p hp).2
    have h2 := h'.new q hq
    omega
  · intro p hp
    rcases List.mem_append.1 hp with hp | hp
    · exact f3 p hp
    · have := h'.new p hp; omega

theorem BuiltE.obj {A : Nat → Prop} {m m' : Mem} {vs : List (Str × Val)} {cs : List (Str × Node)} (h : BuiltE A m m' vs cs)
    (x : Info) (hx : x.alloced = false) : Built A m m' (.obj vs) (.obj x cs) := by
  have ho : ownPtr x = [] := by simp [ownPtr, hx]
  refine ⟨by simp only [Spec.val, h.val], h.readable, h.blocks, h.frame, ⟨⟨by simp [CleanInfo, hx], h.clean⟩, ?_, ?_⟩⟩
  · simpa [owned, ho] using h.good
  · simpa [owned, ho] using h.new

theorem BuiltL.lst {A : Nat → Prop} {m m' : Mem} {vs : List Val} {cs : List Node} (h : BuiltL A m m' vs cs)
    (x : Info) (hx : x.alloced = false) : Built A m m' (.lst vs) (.lst x cs) := by
  have ho : ownPtr x = [] := by simp [ownPtr, hx]
  refine ⟨by simp only [Spec.val, h.val], h.readable, h.blocks, h.frame, ⟨⟨by simp [CleanInfo, hx], h.clean⟩, ?_, ?_⟩⟩
  · simpa [owned, ho] using h.good
  · simpa [owned, ho] using h.new

theorem copy_seq (L : Lib) (big : Bool) (q : Ptr) (A : Nat → Prop) : ∀ (ms : List (Str × JV)) (off off' : Int) (m : Mem)
    (cs : List (Str × Schema)), (∀ e ∈ ms, CopyClaim L big q A e.2) → (∀ e ∈ ms, NoInline e.2) → (∀ e ∈ ms, Regular e.2) →
    SteadyM ms → (A q.blk ∨ ∀ e ∈ ms, Explicit e.2) → SeqS off ms cs → (off' = off ∨ AnchoredM ms) →
    ReadableE m (walkE (some q) cs) →
    ∃ m' ns, SeqN L big false (some q) off' m ms m' ns ∧ BuiltE A m m' (viewE m (some q) cs) ns ∧
      totalStridedBytesE (schemaE ns) = totalBytesCompactE cs
  | [], off, off', m, cs, _, _, _, _, _, h, _, _ => by
    cases h
    exact ⟨m, [], ⟨rfl, rfl⟩, BuiltE.nil A m, rfl⟩
  | (n, v) :: ms, off, off', m, cs, hc, hi, hr, hs, hA, h, ho, hrd => by
    obtain ⟨c, cs', rfl, h1, h2⟩ := h
    obtain ⟨m1, k, k1, k2, k3⟩ := hc (n, v) (by simp) (hi _ (by simp)) (hr _ (by simp)) hs.1
      (hA.imp id (fun h => h _ (by simp))) _ {} off off' m c h1 (ho.imp id (fun h => h.1)) rfl hrd.1
    have ag := k2.frame.agree (blocksE_lt _ hrd.2) (by simp)
    obtain ⟨m2, ns, l1, l2, l3⟩ := copy_seq L big q A ms (off + totalStridedBytes c) (off' + totalStridedBytes k.schema) m1 cs'
      (fun e he => hc e (by simp [he])) (fun e he => hi e (by simp [he])) (fun e he => hr e (by simp [he])) hs.2.2
      (hA.imp id (fun h e he => h e (by simp [he]))) h2
      (by
        rcases hs.2.1 with hp | ha
        · rcases ho with ho | ho
          · left
            have := packed_walkS v (hr (n, v) (by simp)) hp _ _ _ h1
            rw [k3, this, ho]
          · exact .inr ho.2
        · exact .inr ha)
      ((readableE_agree _ ag).2 hrd.2)
    refine ⟨m2, (n, k) :: ns, ⟨k, ns, m1, rfl, k1, l1⟩, ?_, ?_⟩
    · rw [← valE_walk, valE_agree _ ag, valE_walk] at l2
      exact BuiltE.cons n k2 l2
    · simp only [schemaE, totalStridedBytesE, totalBytesCompactE, k3, l3]

theorem copy_seqL (L : Lib) (big : Bool) (q : Ptr) (A : Nat → Prop) : ∀ (ms : List JV) (off off' : Int) (m : Mem)
    (cs : List Schema), (∀ e ∈ ms, CopyClaim L big q A e) → (∀ e ∈ ms, NoInline e) → (∀ e ∈ ms, Regular e) →
    SteadyL ms → (A q.blk ∨ ∀ e ∈ ms, Explicit e) → SeqSL off ms cs → (off' = off ∨ AnchoredL ms) →
    ReadableL m (walkL (some q) cs) →
    ∃ m' ns, SeqNL L big false (some q) off' m ms m' ns ∧ BuiltL A m m' (viewL m (some q) cs) ns ∧
      totalStridedBytesL (schemaL ns) = totalBytesCompactL cs
  | [], off, off', m, cs, _, _, _, _, _, h, _, _ => by
    cases h
    exact ⟨m, [], ⟨rfl, rfl⟩, BuiltL.nil A m, rfl⟩
  | v :: ms, off, off', m, cs, hc, hi, hr, hs, hA, h, ho, hrd => by
    obtain ⟨c, cs', rfl, h1, h2⟩ := h
    obtain ⟨m1, k, k1, k2, k3⟩ := hc v (by simp) (hi _ (by simp)) (hr _ (by simp)) hs.1
      (hA.imp id (fun h => h _ (by simp))) _ {} off off' m c h1 (ho.imp id (fun h => h.1)) rfl hrd.1
    have ag := k2.frame.agree (blocksL_lt _ hrd.2) (by simp)
    obtain ⟨m2, ns, l1, l2, l3⟩ := copy_seqL L big q A ms (off + totalStridedBytes c) (off' + totalStridedBytes k.schema) m1 cs'
      (fun e he => hc e (by simp [he])) (fun e he => hi e (by simp [he])) (fun e he => hr e (by simp [he])) hs.2.2
      (hA.imp id (fun h e he => h e (by simp [he]))) h2
      (by
        rcases hs.2.1 with hp | ha
        · rcases ho with ho | ho
          · left
            have := packed_walkS v (hr _ (by simp)) hp _ _ _ h1
            rw [k3, this, ho]
          · exact .inr ho.2
        · exact .inr ha)
      ((readableL_agree _ ag).2 hrd.2)
    refine ⟨m2, k :: ns, ⟨k, ns, m1, rfl, k1, l1⟩, ?_, ?_⟩
    · rw [← valL_walk, valL_agree _ ag, valL_walk] at l2
      exact BuiltL.cons k2 l2
    · simp only [schemaL, totalStridedBytesL, totalBytesCompactL, k3, l3]

theorem steadyL_replicate {v : JV} (hs : Steady v) : ∀ k : Nat, (Packed v ∨ Anchored v ∨ k ≤ 1) →
    SteadyL (List.replicate k v)
  | 0, _ => trivial
  | k + 1, h => by
    rw [List.replicate_succ]
    refine ⟨hs, ?_, steadyL_replicate hs k (h.imp id (Or.imp id (fun h => by omega)))⟩
    rcases h with h | h | h
    · exact .inl h
    · right; exact allLeavesL_mem.2 (fun e he => by rw [List.eq_of_mem_replicate he]; exact h)
    · right; rw [show k = 0 by omega]; trivial

mutual
theorem copy_walk (L : Lib) (big : Bool) (q : Ptr) (A : Nat → Prop) : ∀ v : JV, CopyClaim L big q A v
  | .obj ms => by
    intro hi hr hs hA init x off off' m s h ho hx hrd
    rcases walkS_obj hr h with ⟨name, d, h1, h2, rfl⟩ | ⟨ds, k, hk, h1, h2, cs, rfl, h3⟩ | ⟨h1, h2, es, rfl, h3⟩
    · obtain ⟨i1, i2⟩ := (allLeaves_leaf h1).1 hi
      have h2' : leafDtype ms off' = .ok d := by
        rcases ho with ho | ho
        · rw [ho, h2]
        · rw [anchored_leaf ((allLeaves_leaf h1).1 ho) off off', h2]
      obtain ⟨m', n, k1, k2, k3⟩ := leafData_copy A q d x m hx hrd
      refine ⟨m', n, ?_, k2, k3⟩
      rw [walkN, h1]
      simp only [leafExplicit]
      rw [h2', bind_ok, i2]
      simp only
      rw [k1, bind_ok, i1]
    · have hm := mem_of_lookup h1
      have hd : ∀ name, ms.lookup (chars! "dtype") ≠ some (.str name) := by rw [h1]; simp
      have hst : SteadyA ms ∧ (Packed (.obj ds) ∨ Anchored (.obj ds) ∨ MemberIs ms (chars! "length") 1) := by
        rw [Steady] at hs; rw [h1] at hs; exact hs
      have hk1 : MemberIs ms (chars! "length") 1 → k ≤ 1 := by
        intro hm
        unfold listOfLength at h2
        rcases hm with hm | hm
        · rw [hm] at h2; injection h2 with h2; omega
        · rw [hm] at h2
          simp only [getInt] at h2
          rw [if_pos (by decide)] at h2
          injection h2 with h2; omega
      obtain ⟨m', ns, l1, l2, l3⟩ := copy_seqL L big q A (List.replicate k (.obj ds)) off off' m cs
        (fun e he => by rw [List.eq_of_mem_replicate he]; exact copy_walkM L big q A ms _ hm)
        (fun e he => by rw [List.eq_of_mem_replicate he]; exact allLeavesM_mem (allLeaves_members hi hd) _ hm)
        (fun e he => by rw [List.eq_of_mem_replicate he]; exact regular_members hr hd _ hm)
        (steadyL_replicate (steadyA_mem hst.1 _ hm) k (hst.2.imp id (Or.imp id hk1)))
        (hA.imp id (fun h e he => by rw [List.eq_of_mem_replicate he]; exact allLeavesM_mem (allLeaves_members h hd) _ hm))
        h3
        (ho.imp id (fun h => allLeavesL_mem.2 (fun e he => by
          rw [List.eq_of_mem_replicate he]; exact allLeavesM_mem (allLeaves_members h hd) _ hm)))
        hrd
      refine ⟨m', .lst x ns, ?_, l2.lst x hx, by simp only [Node.schema, totalStridedBytes, totalBytesCompact, l3]⟩
      rw [walkN, h1]
      simp only
      rw [listOf_N h2, lookup_walkNM, h1]
      simp only [Option.map_some]
      rw [if_neg (by omega), Int.toNat_natCast, walkNL_replicate, lstLoopN_seq L big false (some q) _ _ _ _ _ _ l1]
      simp [Res.map']
    · have hd : ∀ name, ms.lookup (chars! "dtype") ≠ some (.str name) := by rw [h1]; simp
      have hst : SteadyM ms := by rw [Steady] at hs; rw [h1] at hs; exact hs
      obtain ⟨m', ns, l1, l2, l3⟩ := copy_seq L big q A ms off off' m es (copy_walkM L big q A ms)
        (allLeavesM_mem (allLeaves_members hi hd)) (regular_members hr hd) hst
        (hA.imp id (fun h => allLeavesM_mem (allLeaves_members h hd))) h3
        (ho.imp id (fun h => allLeaves_members h hd)) hrd
      refine ⟨m', .obj x ns, ?_, l2.obj x hx, by simp only [Node.schema, totalStridedBytes, totalBytesCompact, l3]⟩
      rw [walkN, h1]
      simp only
      rw [objLoopN_seq L big false (some q) ms [] ns off' m m' (by simpa using h2) l1]
      simp [Res.map']
  | .arr vs => by
    intro hi hr hs hA init x off off' m s h ho hx hrd
    rw [walkS] at h
    obtain ⟨cs, h1, rfl⟩ := map'_ok_iff.1 h
    obtain ⟨rest, h2, h3⟩ := lstLoop_seq _ _ _ _ h1
    simp at h2
    subst h2
    obtain ⟨m', ns, l1, l2, l3⟩ := copy_seqL L big q A vs off off' m _ (copy_walkL L big q A vs)
      (allLeavesL_mem.1 hi) (regularL_mem.1 hr) hs (hA.imp id allLeavesL_mem.1) h3 ho hrd
    refine ⟨m', .lst x ns, ?_, l2.lst x hx, by simp only [Node.schema, totalStridedBytes, totalBytesCompact, l3]⟩
    rw [walkN, lstLoopN_seq L big false (some q) vs [] ns off' m m' l1]
    simp [Res.map']
  | .str t => by
    intro hi hr hs hA init x off off' m s h ho hx hrd
    rcases hA with hA | hA
    · have ho : off' = off := by
        rcases ho with ho | ho
        · exact ho
        · exact absurd ho id
      subst ho
      rw [walkS] at h
      obtain ⟨d, h1, rfl⟩ := map'_ok_iff.1 h
      have hpk := packed_walkS (.str t) trivial trivial .empty off' (Tree.setDtype d) (by rw [walkS, h1]; rfl)
      by_cases hd : DataId d.id
      · rw [setDtype_leaf hd] at hrd hpk ⊢
        refine ⟨m, .leaf ⟨some q, x.alloced⟩ d, ?_, ⟨rfl, ?_, ?_, frame_refl m, ?_⟩, hpk⟩
        · rw [walkN, leafNamed, h1, bind_ok]
          simp only
          rw [ofDtype_leaf _ _ hd]
        · exact hrd
        · intro b hb
          simp only [Spec.blocks] at hb
          split at hb
          · simp at hb
          · simp at hb; rw [hb]; exact .inr hA
        · refine ⟨⟨by simp [CleanInfo, hx], fun _ => hx⟩, by simp only [owned, ownPtr, hx]; exact good_nil m, by simp [owned, ownPtr, hx]⟩
      · obtain ⟨g1, g2, g3⟩ := built_none A ⟨some q, x.alloced⟩ d m (some q) hx hd _ (.inr rfl) (by
          intro he
          have : Tree.setDtype d = .leaf d := by unfold Tree.setDtype; rw [he]
          rw [this] at hrd
          exact hrd.2.2.1)
        refine ⟨m, _, ?_, g1, by rw [g2, g3]⟩
        rw [walkN, leafNamed, h1, bind_ok]
    · exact absurd hA id
  | .null => by intro _ _ _ _ _ _ _ _ _ _ h; rw [walkS] at h; cases h
  | .bool _ => by intro _ _ _ _ _ _ _ _ _ _ h; rw [walkS] at h; cases h
  | .int _ => by intro _ _ _ _ _ _ _ _ _ _ h; rw [walkS] at h; cases h
  | .real _ => by intro _ _ _ _ _ _ _ _ _ _ h; rw [walkS] at h; cases h
theorem copy_walkM (L : Lib) (big : Bool) (q : Ptr) (A : Nat → Prop) : ∀ ms : List (Str × JV), ∀ e ∈ ms, CopyClaim L big q A e.2
  | [], e, he => by simp at he
  | (n, v) :: ms, e, he => by
    rcases List.mem_cons.1 he with rfl | he
    · exact copy_walk L big q A v
    · exact copy_walkM L big q A ms e he
theorem copy_walkL (L : Lib) (big : Bool) (q : Ptr) (A : Nat → Prop) : ∀ ms : List JV, ∀ e ∈ ms, CopyClaim L big q A e
  | [], e, he => by simp at he
  | v :: ms, e, he => by
    rcases List.mem_cons.1 he with h | he
    · rw [h]; exact copy_walk L big q A v
    · exact copy_walkL L big q A ms e he
end

/-! ### the external walk -/

/-- What the external walk makes of a document: the schema of the Schema walk, every leaf on the
    caller's buffer, memory as before. -/
def ExtClaim (L : Lib) (big : Bool) (q : Ptr) (v : JV) : Prop :=
  NoInline v → Regular v → ∀ init x off m s, walkS v init off = .ok s →
    ∃ n, walkN L big true (some q) v x off m = .ok (m, n) ∧ n.schema = s ∧ OnBuffer q n

theorem ext_seq (L : Lib) (big : Bool) (q : Ptr) : ∀ (ms : List (Str × JV)) (off : Int) (m : Mem) (cs : List (Str × Schema)),
    (∀ e ∈ ms, ExtClaim L big q e.2) → (∀ e ∈ ms, NoInline e.2) → (∀ e ∈ ms, Regular e.2) → SeqS off ms cs →
    ∃ ns, SeqN L big true (some q) off m ms m ns ∧ schemaE ns = cs ∧ OnBufferE q ns
  | [], off, m, cs, _, _, _, h => by cases h; exact ⟨[], ⟨rfl, rfl⟩, rfl, trivial⟩
  | (n, v) :: ms, off, m, cs, hc, hi, hr, h => by
    obtain ⟨c, cs', rfl, h1, h2⟩ := h
    obtain ⟨k, k1, k2, k3⟩ := hc (n, v) (by simp) (hi _ (by simp)) (hr _ (by simp)) _ {} off m c h1
    obtain ⟨ns, l1, l2, l3⟩ := ext_seq L big q ms _ m cs' (fun e he => hc e (by simp [he])) (fun e he => hi e (by simp [he]))
      (fun e he => hr e (by simp [he])) h2
    exact ⟨(n, k) :: ns, ⟨k, ns, m, rfl, k1, by simp only [advance]; rw [k2]; exact l1⟩, by simp [schemaE, k2, l2], k3, l3⟩

theorem ext_seqL (L : Lib) (big : Bool) (q : Ptr) : ∀ (ms : List JV) (off : Int) (m : Mem) (cs : List Schema),
    (∀ e ∈ ms, ExtClaim L big q e) → (∀ e ∈ ms, NoInline e) → (∀ e ∈ ms, Regular e) → SeqSL off ms cs →
    ∃ ns, SeqNL L big true (some q) off m ms m ns ∧ schemaL ns = cs ∧ OnBufferL q ns
  | [], off, m, cs, _, _, _, h => by cases h; exact ⟨[], ⟨rfl, rfl⟩, rfl, trivial⟩
  | v :: ms, off, m, cs, hc, hi, hr, h => by
    obtain ⟨c, cs', rfl, h1, h2⟩ := h
    obtain ⟨k, k1, k2, k3⟩ := hc v (by simp) (hi _ (by simp)) (hr _ (by simp)) _ {} off m c h1
    obtain ⟨ns, l1, l2, l3⟩ := ext_seqL L big q ms _ m cs' (fun e he => hc e (by simp [he])) (fun e he => hi e (by simp [he]))
      (fun e he => hr e (by simp [he])) h2
    exact ⟨k :: ns, ⟨k, ns, m, rfl, k1, by simp only [advance]; rw [k2]; exact l1⟩, by simp [schemaL, k2, l2], k3, l3⟩

theorem ofDtype_buffer (q : Ptr) (al : Bool) (d : DataType) :
    (ofDtype ⟨some q, al⟩ d).schema = Tree.setDtype d ∧ OnBuffer q (ofDtype ⟨some q, al⟩ d) := by
  unfold ofDtype Tree.setDtype
  split <;> rename_i h <;> simp [h, Node.schema, OnBuffer, OnBufferE, OnBufferL, schemaE, schemaL]

mutual
theorem ext_walk (L : Lib) (big : Bool) (q : Ptr) : ∀ v : JV, ExtClaim L big q v
  | .obj ms => by
    intro hi hr init x off m s h
    rcases walkS_obj hr h with ⟨name, d, h1, h2, rfl⟩ | ⟨ds, k, hk, h1, h2, cs, rfl, h3⟩ | ⟨h1, h2, es, rfl, h3⟩
    · obtain ⟨i1, i2⟩ := (allLeaves_leaf h1).1 hi
      refine ⟨ofDtype ⟨some q, x.alloced⟩ d, ?_, ofDtype_buffer q _ d⟩
      rw [walkN, h1]
      simp only [leafExplicit]
      rw [h2, bind_ok, i2]
      simp only [leafData, if_true]
      rw [bind_ok, i1]
    · have hm := mem_of_lookup h1
      have hd : ∀ name, ms.lookup (chars! "dtype") ≠ some (.str name) := by rw [h1]; simp
      obtain ⟨ns, l1, l2, l3⟩ := ext_seqL L big q (List.replicate k (.obj ds)) off m cs
        (fun e he => by rw [List.eq_of_mem_replicate he]; exact ext_walkM L big q ms _ hm)
        (fun e he => by rw [List.eq_of_mem_replicate he]; exact allLeavesM_mem (allLeaves_members hi hd) _ hm)
        (fun e he => by rw [List.eq_of_mem_replicate he]; exact regular_members hr hd _ hm) h3
      refine ⟨.lst x ns, ?_, by simp [Node.schema, l2], l3⟩
      rw [walkN, h1]
      simp only
      rw [listOf_N h2, lookup_walkNM, h1]
      simp only [Option.map_some]
      rw [if_neg (by omega), Int.toNat_natCast, walkNL_replicate, lstLoopN_seq L big true (some q) _ _ _ _ _ _ l1]
      simp [Res.map']
    · have hd : ∀ name, ms.lookup (chars! "dtype") ≠ some (.str name) := by rw [h1]; simp
      obtain ⟨ns, l1, l2, l3⟩ := ext_seq L big q ms off m es (ext_walkM L big q ms)
        (allLeavesM_mem (allLeaves_members hi hd)) (regular_members hr hd) h3
      refine ⟨.obj x ns, ?_, by simp [Node.schema, l2], l3⟩
      rw [walkN, h1]
      simp only
      rw [objLoopN_seq L big true (some q) ms [] ns off m m (by simpa using h2) l1]
      simp [Res.map']
  | .arr vs => by
    intro hi hr init x off m s h
    rw [walkS] at h
    obtain ⟨cs, h1, rfl⟩ := map'_ok_iff.1 h
    obtain ⟨rest, h2, h3⟩ := lstLoop_seq _ _ _ _ h1
    simp at h2
    subst h2
    obtain ⟨ns, l1, l2, l3⟩ := ext_seqL L big q vs off m _ (ext_walkL L big q vs) (allLeavesL_mem.1 hi) (regularL_mem.1 hr) h3
    refine ⟨.lst x ns, ?_, by simp [Node.schema, l2], l3⟩
    rw [walkN, lstLoopN_seq L big true (some q) vs [] ns off m m l1]
    simp [Res.map']
  | .str t => by
    intro hi hr init x off m s h
    rw [walkS] at h
    obtain ⟨d, h1, rfl⟩ := map'_ok_iff.1 h
    refine ⟨ofDtype ⟨some q, x.alloced⟩ d, ?_, ofDtype_buffer q _ d⟩
    rw [walkN, leafNamed, h1, bind_ok]
  | .null => by intro _ _ _ _ _ _ _ h; rw [walkS] at h; cases h
  | .bool _ => by intro _ _ _ _ _ _ _ h; rw [walkS] at h; cases h
  | .int _ => by intro _ _ _ _ _ _ _ h; rw [walkS] at h; cases h
  | .real _ => by intro _ _ _ _ _ _ _ h; rw [walkS] at h; cases h
theorem ext_walkM (L : Lib) (big : Bool) (q : Ptr) : ∀ ms : List (Str × JV), ∀ e ∈ ms, ExtClaim L big q e.2
  | [], e, he => by simp at he
  | (n, v) :: ms, e, he => by
    rcases List.mem_cons.1 he with rfl | he
    · exact ext_walk L big q v
    · exact ext_walkM L big q ms e he
theorem ext_walkL (L : Lib) (big : Bool) (q : Ptr) : ∀ ms : List JV, ∀ e ∈ ms, ExtClaim L big q e
  | [], e, he => by simp at he
  | v :: ms, e, he => by
    rcases List.mem_cons.1 he with h | he
    · rw [h]; exact ext_walk L big q v
    · exact ext_walkL L big q ms e he
end

mutual
theorem val_onBuffer (m : Mem) (q : Ptr) : ∀ n : Node, OnBuffer q n → val m n = view m (some q) n.schema
  | .leaf x d, h => by simp only [OnBuffer] at h; simp only [val, Node.schema, view, h]
  | .obj x es, h => by simp only [val, Node.schema, view, valE_onBuffer m q es h]
  | .lst x es, h => by simp only [val, Node.schema, view, valL_onBuffer m q es h]
theorem valE_onBuffer (m : Mem) (q : Ptr) : ∀ es : List (Str × Node), OnBufferE q es → valE m es = viewE m (some q) (schemaE es)
  | [], _ => rfl
  | (n, c) :: es, h => by simp only [valE, schemaE, viewE, val_onBuffer m q c h.1, valE_onBuffer m q es h.2]
theorem valL_onBuffer (m : Mem) (q : Ptr) : ∀ es : List Node, OnBufferL q es → valL m es = viewL m (some q) (schemaL es)
  | [], _ => rfl
  | c :: es, h => by simp only [valL, schemaL, viewL, val_onBuffer m q c h.1, valL_onBuffer m q es h.2]
end

end Conduit
