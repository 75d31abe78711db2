import Verif.Lemmas.Leak
import Verif.Lemmas.ListOf
namespace Conduit
open Spec Schema Node Relay Leak

/-! ### C107: replacing what a node holds leaks no memory -/

/-- From a node `a` in memory `m` to a node `b` in memory `m'`: every block that is live afterwards belongs to the node, or was live before
    and did not belong to it. -/
def NoLeak (m : Mem) (a : Node) (m' : Mem) (b : Node) : Prop :=
  ∀ k, Live m' k → k ∈ (owned b).map Ptr.blk ∨ (Live m k ∧ k ∉ (owned a).map Ptr.blk)

theorem noLeak_gone {m m1 m' : Mem} {a b : Node} (h : Gone m m1 (owned a)) (hl : ∀ k, Live m' k → k ∈ (owned b).map Ptr.blk ∨ Live m1 k) : NoLeak m a m' b := by
  intro k hk
  rcases hl k hk with h1 | h1
  · exact .inl h1
  · exact .inr (h k h1)

/-- C107: one operation after the other -/
theorem C107_sequence {m m1 m2 : Mem} {a b c : Node} (h : NoLeak m a m1 b) (g : NoLeak m1 b m2 c) : NoLeak m a m2 c := by
  intro k hk
  rcases g k hk with h1 | ⟨h1, h2⟩
  · exact .inl h1
  · rcases h k h1 with h3 | h3
    · exact absurd h3 h2
    · exact .inr h3

/-- C107: after `reset` the node owns nothing, and what it owned is freed: all that is live was live before. -/
theorem C107_reset {n n' : Node} {m m' : Mem} (hc : Clean n) (h : n.reset m = .ok (m', n')) :
    owned n' = [] ∧ NoLeak m n m' n' := by
  obtain ⟨h1, rfl⟩ := gone_reset hc h
  refine ⟨?_, noLeak_gone h1 fun k hk => .inr hk⟩
  rw [owned, ownPtr, releasedInfo_clean hc, if_neg (by simp)]

theorem own_walk {p : Ptr} {s : Schema} : p.blk ∈ (owned (walk (some p) true s)).map Ptr.blk := by
  rw [owned_walk_true]; simp

/-- C107: `compact_to` -/
theorem C107_compact_to {src dest n' : Node} {m m' : Mem} (hc : Clean dest) (h : compactTo src dest m = .ok (m', n')) :
    NoLeak m dest m' n' := by
  unfold Node.compactTo at h
  obtain ⟨r, h1, h2⟩ := of_bind h
  obtain ⟨m2, h3, h4⟩ := of_bind h2
  injection h4 with h4
  injection h4 with h4 h5
  subst h4
  subst h5
  obtain ⟨g1, _⟩ := gone_reset (m' := r.1) (k := r.2) hc h1
  refine noLeak_gone g1 fun k hk => ?_
  have hk := le_compactWrite _ _ h3 k hk
  split at hk
  · rename_i hpos
    rcases live_allocate hk with h | ⟨p, e1, e2⟩
    · exact .inr h
    · left
      rw [if_pos hpos, e1, ← e2]
      exact own_walk
  · exact .inr hk


mutual
/-- C107: `set(node)` -/
theorem C107_set : ∀ (src : Node) {dest n' : Node} {m m' : Mem}, Clean dest → setNode src dest m = .ok (m', n') → NoLeak m dest m' n'
  | .obj x es, dest, n', m, m', hc, h => by
    rw [setNode] at h
    obtain ⟨r, h1, h2⟩ := of_bind h
    obtain ⟨s, h3, h4⟩ := of_bind h2
    injection h4 with h4
    injection h4 with h4 h5
    subst h4
    subst h5
    obtain ⟨g1, _⟩ := gone_reset (m' := r.1) (k := r.2) hc h1
    refine noLeak_gone g1 fun k hk => ?_
    rcases setNodeE_live es h3 k hk with h | h
    · left
      rw [owned, List.map_append]
      exact List.mem_append_right _ h
    · exact .inr h
  | .lst x es, dest, n', m, m', hc, h => by
    rw [setNode] at h
    obtain ⟨r, h1, h2⟩ := of_bind h
    obtain ⟨s, h3, h4⟩ := of_bind h2
    injection h4 with h4
    injection h4 with h4 h5
    subst h4
    subst h5
    obtain ⟨g1, _⟩ := gone_reset (m' := r.1) (k := r.2) hc h1
    refine noLeak_gone g1 fun k hk => ?_
    rcases setNodeL_live es h3 k hk with h | h
    · left
      rw [owned, List.map_append]
      exact List.mem_append_right _ h
    · exact .inr h
  | .leaf x d, dest, n', m, m', hc, h => by
    rw [setNode] at h
    split at h
    · exact (C107_reset hc h).2
    · exact C107_compact_to hc h
theorem setNodeE_live : ∀ (es : List (Str × Node)) {m m' : Mem} {ns : List (Str × Node)}, setNodeE es m = .ok (m', ns) →
    ∀ k, Live m' k → k ∈ (ownedE ns).map Ptr.blk ∨ Live m k
  | [], m, m', ns, h, k, hk => by
    rw [setNodeE] at h
    injection h with h
    injection h with h _
    subst h
    exact .inr hk
  | (n, c) :: es, m, m', ns, h, k, hk => by
    rw [setNodeE] at h
    obtain ⟨r, h1, h2⟩ := of_bind h
    obtain ⟨s, h3, h4⟩ := of_bind h2
    injection h4 with h4
    injection h4 with h4 h5
    subst h4
    subst h5
    rw [ownedE, List.map_append, List.mem_append]
    rcases setNodeE_live es h3 k hk with h | h
    · exact .inl (.inr h)
    · rcases C107_set c clean_new h1 k h with h | h
      · exact .inl (.inl h)
      · exact .inr h.1
theorem setNodeL_live : ∀ (es : List Node) {m m' : Mem} {ns : List Node}, setNodeL es m = .ok (m', ns) →
    ∀ k, Live m' k → k ∈ (ownedL ns).map Ptr.blk ∨ Live m k
  | [], m, m', ns, h, k, hk => by
    rw [setNodeL] at h
    injection h with h
    injection h with h _
    subst h
    exact .inr hk
  | c :: es, m, m', ns, h, k, hk => by
    rw [setNodeL] at h
    obtain ⟨r, h1, h2⟩ := of_bind h
    obtain ⟨s, h3, h4⟩ := of_bind h2
    injection h4 with h4
    injection h4 with h4 h5
    subst h4
    subst h5
    rw [ownedL, List.map_append, List.mem_append]
    rcases setNodeL_live es h3 k hk with h | h
    · exact .inl (.inr h)
    · rcases C107_set c clean_new h1 k h with h | h
      · exact .inl (.inl h)
      · exact .inr h.1
end

/-- C107: `set(schema)` -/
theorem C107_set_schema {s : Schema} {dest n' : Node} {m m' : Mem} (hc : Clean dest) (h : setSchema s dest m = .ok (m', n')) :
    NoLeak m dest m' n' := by
  unfold setSchema at h
  obtain ⟨m1, h1, h2⟩ := of_bind h
  injection h2 with h2
  injection h2 with h2 h3
  subst h2
  subst h3
  refine noLeak_gone (gone_release dest hc h1) fun k hk => ?_
  rcases live_allocate hk with h | ⟨p, e1, e2⟩
  · exact .inr h
  · left
    rw [e1, ← e2]
    exact own_walk

/-- C107: `set_data_using_schema` -/
theorem C107_set_schema_data {s : Schema} {p : Option Ptr} {dest n' : Node} {m m' : Mem} (hc : Clean dest)
    (h : setSchemaData s p dest m = .ok (m', n')) : NoLeak m dest m' n' := by
  unfold setSchemaData at h
  obtain ⟨m1, h1, h2⟩ := of_bind h
  obtain ⟨m2, h3, h4⟩ := of_bind h2
  injection h4 with h4
  injection h4 with h4 h5
  subst h4
  subst h5
  refine noLeak_gone (gone_release dest hc h1) fun k hk => ?_
  split at h3
  · cases h3
  · rcases live_allocate (le_memcpy h3 k hk) with h | ⟨p, e1, e2⟩
    · exact .inr h
    · left
      rw [e1, ← e2]
      exact own_walk

/-- C107: `set_external(schema, data)` -/
theorem C107_set_external_schema {s : Schema} {p : Option Ptr} {dest n' : Node} {m m' : Mem} (hc : Clean dest)
    (h : setExternalSchema s p dest m = .ok (m', n')) : owned n' = [] ∧ NoLeak m dest m' n' := by
  unfold setExternalSchema at h
  obtain ⟨r, h1, h2⟩ := of_bind h
  injection h2 with h2
  injection h2 with h2 h3
  subst h2
  subst h3
  obtain ⟨g1, g2⟩ := gone_reset (m' := r.1) (k := r.2) hc h1
  refine ⟨?_, noLeak_gone g1 fun k hk => .inr hk⟩
  rw [g2, show (Node.leaf dest.releasedInfo {}).info.alloced = false from releasedInfo_clean hc, owned_walk_false]

/-- C107: `set_external(pointer, ...)` -/
theorem C107_set_external {d : DataType} {p : Option Ptr} {dest n' : Node} {m m' : Mem} (hc : Clean dest)
    (h : setExternalPtr d p dest m = .ok (m', n')) : owned n' = [] ∧ NoLeak m dest m' n' := by
  unfold setExternalPtr at h
  obtain ⟨m1, h1, h2⟩ := of_bind h
  injection h2 with h2
  injection h2 with h2 h3
  subst h2
  subst h3
  refine ⟨?_, noLeak_gone (gone_release dest hc h1) fun k hk => .inr hk⟩
  rw [owned, ownPtr, releasedInfo_clean hc, if_neg (by simp)]

mutual
theorem mirror_clean : ∀ s : Node, Clean (mirror false s) ∧ owned (mirror false s) = []
  | .leaf x d => ⟨⟨by simp [CleanInfo], by simp⟩, by simp [mirror, owned, ownPtr]⟩
  | .obj x es => ⟨⟨by simp [CleanInfo], (mirrorE_clean es).1⟩, by simp [mirror, owned, ownPtr, (mirrorE_clean es).2]⟩
  | .lst x es => ⟨⟨by simp [CleanInfo], (mirrorL_clean es).1⟩, by simp [mirror, owned, ownPtr, (mirrorL_clean es).2]⟩
theorem mirrorE_clean : ∀ es : List (Str × Node), CleanE (mirrorE es) ∧ ownedE (mirrorE es) = []
  | [] => ⟨trivial, rfl⟩
  | (n, c) :: es => ⟨⟨(mirror_clean c).1, (mirrorE_clean es).1⟩, by simp [mirrorE, ownedE, (mirror_clean c).2, (mirrorE_clean es).2]⟩
theorem mirrorL_clean : ∀ es : List Node, CleanL (mirrorL es) ∧ ownedL (mirrorL es) = []
  | [] => ⟨trivial, rfl⟩
  | c :: es => ⟨⟨(mirror_clean c).1, (mirrorL_clean es).1⟩, by simp [mirrorL, ownedL, (mirror_clean c).2, (mirrorL_clean es).2]⟩
end

/-- C107: `set_external(node)` -/
theorem C107_set_external_node {src dest n' : Node} {m m' : Mem} (hc : Clean dest) (h : setExternalNode src dest m = .ok (m', n')) :
    owned n' = [] ∧ Clean n' ∧ NoLeak m dest m' n' := by
  unfold setExternalNode at h
  obtain ⟨r, h1, h2⟩ := of_bind h
  injection h2 with h2
  injection h2 with h2 h3
  subst h2
  subst h3
  obtain ⟨g1, g2⟩ := gone_reset (m' := r.1) (k := r.2) hc h1
  have ha : r.2.info.alloced = false := by rw [g2]; exact releasedInfo_clean hc
  rw [ha]
  exact ⟨(mirror_clean src).2, (mirror_clean src).1, noLeak_gone g1 fun k hk => .inr hk⟩

/-- C107: `load` of a binary file -/
theorem C107_load {s : Schema} {file : List UInt8} {dest n' : Node} {m m' : Mem} (hc : Clean dest) (h : loadBin s file dest m = .ok (m', n')) :
    NoLeak m dest m' n' := by
  unfold loadBin at h
  obtain ⟨r, h1, h2⟩ := of_bind h
  obtain ⟨m2, h3, h4⟩ := of_bind h2
  injection h4 with h4
  injection h4 with h4 h5
  subst h4
  subst h5
  obtain ⟨g1, _⟩ := gone_reset (m' := r.1) (k := r.2) hc h1
  refine noLeak_gone g1 fun k hk => ?_
  rcases live_allocate (le_store h3 k hk) with h | ⟨p, e1, e2⟩
  · exact .inr h
  · left
    rw [e1, ← e2]
    exact own_walk

/-- C107: `list_of` -/
theorem C107_list_of {s : Schema} {c : Nat} {dest n' : Node} {m m' : Mem} (hc : Clean dest) (h : listOf s c dest m = .ok (m', n')) :
    NoLeak m dest m' n' := by
  unfold listOf at h
  obtain ⟨r, h1, h2⟩ := of_bind h
  injection h2 with h2
  injection h2 with h2 h3
  subst h2
  subst h3
  obtain ⟨g1, _⟩ := gone_reset (m' := r.1) (k := r.2) hc h1
  refine noLeak_gone g1 fun k hk => ?_
  rcases live_allocate hk with h | ⟨p, e1, e2⟩
  · exact .inr h
  · left
    rw [e1, owned, ← e2]
    simp [ownPtr]

theorem owned_ofDtype {x : Info} {d : DataType} {p : Ptr} (h : x = ⟨some p, true⟩) : p ∈ owned (ofDtype x d) := by
  subst h
  unfold ofDtype
  split <;> simp [owned, ownPtr, ownedE, ownedL]

theorem init_noLeak {d : DataType} {dest n' : Node} {m m' : Mem} (hc : Clean dest) (h : dest.init d m = .ok (m', n')) :
    NoLeak m dest m' n' := by
  unfold Node.init at h
  split at h
  · injection h with h
    injection h with h h'
    subst h
    subst h'
    intro k hk
    by_cases ho : k ∈ (owned dest).map Ptr.blk
    · exact .inl ho
    · exact .inr ⟨hk, ho⟩
  · obtain ⟨r, h1, h2⟩ := of_bind h
    have g : Gone m r.1 (owned dest) := by
      split at h1
      · obtain ⟨m1, h3, h4⟩ := of_bind h1
        injection h4 with h4
        subst h4
        exact gone_release dest hc h3
      · rename_i hn
        injection h1 with h1
        subst h1
        have : owned dest = [] := by
          cases dest with
          | leaf x e =>
            have hx : x.data = none := by
              cases hx : x.data with
              | none => rfl
              | some p => exact absurd (by simp [Node.info, hx]) hn
            simp [owned, ownPtr, hx]
          | obj x es => exact absurd (by simp [Node.dtype]) hn
          | lst x es => exact absurd (by simp [Node.dtype]) hn
        rw [this]
        exact gone_nil _
    split at h2
    · injection h2 with h2
      injection h2 with h2 h3
      subst h2
      subst h3
      refine noLeak_gone g fun k hk => ?_
      rcases live_allocate hk with h | ⟨p, e1, e2⟩
      · exact .inr h
      · exact .inl (e2 ▸ List.mem_map.2 ⟨p, owned_ofDtype e1, rfl⟩)
    · injection h2 with h2
      injection h2 with h2 h3
      subst h2
      exact noLeak_gone g fun k hk => .inr hk

theorem NoLeak.le {m m1 m' : Mem} {a b : Node} (h : NoLeak m a m1 b) (g : Le m1 m') : NoLeak m a m' b := fun k hk => h k (g k hk)

/-- C107: `set` of a scalar -/
theorem C107_set_scalar {t : TypeId} {bytes : List UInt8} {dest n' : Node} {m m' : Mem} (hc : Clean dest)
    (h : setScalar t bytes dest m = .ok (m', n')) : NoLeak m dest m' n' := by
  unfold setScalar at h
  obtain ⟨r, h1, h2⟩ := of_bind h
  obtain ⟨m2, h3, h4⟩ := of_bind h2
  injection h4 with h4
  injection h4 with h4 h5
  subst h4
  subst h5
  exact (init_noLeak (m' := r.1) (n' := r.2) hc h1).le (le_store h3)

/-- C107: `set` of an array -/
theorem C107_set_array {s : DataType} {p : Option Ptr} {dest n' : Node} {m m' : Mem} (hc : Clean dest)
    (h : setArray s p dest m = .ok (m', n')) : NoLeak m dest m' n' := by
  unfold setArray at h
  obtain ⟨r, h1, h2⟩ := of_bind h
  obtain ⟨m2, h3, h4⟩ := of_bind h2
  injection h4 with h4
  injection h4 with h4 h5
  subst h4
  subst h5
  split at h3
  · cases h3
  · exact (init_noLeak (m' := r.1) (n' := r.2) hc h1).le (le_strided h3)

/-- C107: `set` of a vector -/
theorem C107_set_vector {t : TypeId} {es : List (List UInt8)} {dest n' : Node} {m m' : Mem} (hc : Clean dest)
    (h : setVector t es dest m = .ok (m', n')) : NoLeak m dest m' n' := by
  unfold setVector at h
  obtain ⟨r, h1, h2⟩ := of_bind h
  obtain ⟨m2, h3, h4⟩ := of_bind h2
  injection h4 with h4
  injection h4 with h4 h5
  subst h4
  subst h5
  exact (init_noLeak (m' := r.1) (n' := r.2) hc h1).le (le_store h3)

/-- C107: `set` of a string -/
theorem C107_set_string {text : List UInt8} {dest n' : Node} {m m' : Mem} (hc : Clean dest)
    (h : setString text dest m = .ok (m', n')) : NoLeak m dest m' n' := by
  unfold setString at h
  obtain ⟨r, h1, h2⟩ := of_bind h
  obtain ⟨m2, h3, h4⟩ := of_bind h2
  injection h4 with h4
  injection h4 with h4 h5
  subst h4
  subst h5
  refine (init_noLeak (m' := r.1) (n' := r.2) hc h1).le ?_
  split at h3
  · exact le_store h3
  · split at h3
    · exact le_storeElems _ h3
    · cases h3

/-! #### nodes stay clean -/

theorem clean_reset {n n' : Node} {m m' : Mem} (hc : Clean n) (h : n.reset m = .ok (m', n')) : Clean n' := by
  obtain ⟨_, rfl⟩ := gone_reset hc h
  have := releasedInfo_clean hc
  exact ⟨by simp [CleanInfo, this], fun _ => this⟩

theorem clean_allocate {m : Mem} {k : Int} (h : 0 ≤ k) : ∃ p, (allocate m k).2 = ⟨some p, true⟩ := by
  unfold allocate
  rw [if_neg (by omega)]
  exact ⟨_, rfl⟩

theorem clean_compactTo {src dest n' : Node} {m m' : Mem} (hc : Clean dest) (h : compactTo src dest m = .ok (m', n')) : Clean n' := by
  unfold Node.compactTo at h
  obtain ⟨r, h1, h2⟩ := of_bind h
  obtain ⟨m2, h3, h4⟩ := of_bind h2
  injection h4 with h4
  injection h4 with h4 h5
  subst h5
  obtain ⟨_, g2⟩ := gone_reset (m' := r.1) (k := r.2) hc h1
  by_cases hpos : src.schema.totalBytesCompact > 0
  · rw [if_pos hpos]
    obtain ⟨p, hp⟩ := clean_allocate (m := r.1) (k := src.schema.totalBytesCompact) (by omega)
    rw [hp]
    refine (walk_true p _ ?_).1
    intro d hd he
    have ht := total_compactAt src.schema 0
    rw [← Schema.compactTo, hd, totalBytesCompact, if_pos he] at ht
    omega
  · rw [if_neg hpos, g2, show (Node.leaf dest.releasedInfo {}).info.alloced = false from releasedInfo_clean hc]
    exact (walk_false _ _).1

mutual
theorem clean_set : ∀ (src : Node) {dest n' : Node} {m m' : Mem}, Clean dest → setNode src dest m = .ok (m', n') → Clean n'
  | .obj x es, dest, n', m, m', hc, h => by
    rw [setNode] at h
    obtain ⟨r, h1, h2⟩ := of_bind h
    obtain ⟨s, h3, h4⟩ := of_bind h2
    injection h4 with h4
    injection h4 with h4 h5
    subst h5
    obtain ⟨_, g2⟩ := gone_reset (m' := r.1) (k := r.2) hc h1
    rw [g2]
    exact ⟨by simp [CleanInfo, Node.info, releasedInfo_clean hc], clean_setE es h3⟩
  | .lst x es, dest, n', m, m', hc, h => by
    rw [setNode] at h
    obtain ⟨r, h1, h2⟩ := of_bind h
    obtain ⟨s, h3, h4⟩ := of_bind h2
    injection h4 with h4
    injection h4 with h4 h5
    subst h5
    obtain ⟨_, g2⟩ := gone_reset (m' := r.1) (k := r.2) hc h1
    rw [g2]
    exact ⟨by simp [CleanInfo, Node.info, releasedInfo_clean hc], clean_setL es h3⟩
  | .leaf x d, dest, n', m, m', hc, h => by
    rw [setNode] at h
    split at h
    · exact clean_reset hc h
    · exact clean_compactTo hc h
theorem clean_setE : ∀ (es : List (Str × Node)) {m m' : Mem} {ns : List (Str × Node)}, setNodeE es m = .ok (m', ns) → CleanE ns
  | [], m, m', ns, h => by
    rw [setNodeE] at h
    injection h with h
    injection h with _ h
    subst h
    trivial
  | (n, c) :: es, m, m', ns, h => by
    rw [setNodeE] at h
    obtain ⟨r, h1, h2⟩ := of_bind h
    obtain ⟨s, h3, h4⟩ := of_bind h2
    injection h4 with h4
    injection h4 with h4 h5
    subst h5
    exact ⟨clean_set c clean_new h1, clean_setE es h3⟩
theorem clean_setL : ∀ (es : List Node) {m m' : Mem} {ns : List Node}, setNodeL es m = .ok (m', ns) → CleanL ns
  | [], m, m', ns, h => by
    rw [setNodeL] at h
    injection h with h
    injection h with _ h
    subst h
    trivial
  | c :: es, m, m', ns, h => by
    rw [setNodeL] at h
    obtain ⟨r, h1, h2⟩ := of_bind h
    obtain ⟨s, h3, h4⟩ := of_bind h2
    injection h4 with h4
    injection h4 with h4 h5
    subst h5
    exact ⟨clean_set c clean_new h1, clean_setL es h3⟩
end

theorem clean_init {d : DataType} {dest n' : Node} {m m' : Mem} (hc : Clean dest) (hs : 0 ≤ d.spannedBytes) (h : dest.init d m = .ok (m', n')) :
    Clean n' := by
  unfold Node.init at h
  split at h
  · injection h with h
    injection h with h h'
    subst h'
    exact hc
  · obtain ⟨r, h1, h2⟩ := of_bind h
    have g : r.2.alloced = false := by
      split at h1
      · obtain ⟨m1, h3, h4⟩ := of_bind h1
        injection h4 with h4
        subst h4
        exact releasedInfo_clean hc
      · rename_i hn
        injection h1 with h1
        subst h1
        cases dest with
        | leaf x e =>
          have hx : x.data = none := by
            cases hx : x.data with
            | none => rfl
            | some p => exact absurd (by simp [Node.info, hx]) hn
          cases ha : x.alloced with
          | false => exact ha
          | true => have := hc.1 ha; rw [hx] at this; cases this
        | obj x es => exact absurd (by simp [Node.dtype]) hn
        | lst x es => exact absurd (by simp [Node.dtype]) hn
    split at h2
    · rename_i hd
      injection h2 with h2
      injection h2 with h2 h3
      subst h3
      obtain ⟨p, hp⟩ := clean_allocate (m := r.1) hs
      rw [hp]
      unfold ofDtype
      split
      · exact ⟨by simp [CleanInfo], trivial⟩
      · exact ⟨by simp [CleanInfo], trivial⟩
      · exact ⟨by simp [CleanInfo], fun he => by simp [he] at hd⟩
    · injection h2 with h2
      injection h2 with h2 h3
      subst h3
      unfold ofDtype
      split
      · exact ⟨by simp [CleanInfo, g], trivial⟩
      · exact ⟨by simp [CleanInfo, g], trivial⟩
      · exact ⟨by simp [CleanInfo, g], fun _ => g⟩

/-! #### update -/

theorem ownedE_set {k : Nat} {e : Str × Node} : ∀ (es : List (Str × Node)) (i : Nat) (c : Str × Node), es[i]? = some c → k ∈ (ownedE es).map Ptr.blk →
    k ∈ (owned c.2).map Ptr.blk ∨ k ∈ (ownedE (es.set i e)).map Ptr.blk
  | (n, c0) :: es, 0, c, h, hk => by
    rw [List.getElem?_cons_zero] at h
    injection h with h
    subst h
    rw [ownedE, List.map_append, List.mem_append] at hk
    rcases hk with h | h
    · exact .inl h
    · right
      obtain ⟨a, b⟩ := e
      rw [List.set_cons_zero, ownedE, List.map_append]
      exact List.mem_append_right _ h
  | (n, c0) :: es, i + 1, c, h, hk => by
    rw [List.getElem?_cons_succ] at h
    rw [ownedE, List.map_append, List.mem_append] at hk
    rw [List.set_cons_succ, ownedE, List.map_append, List.mem_append]
    rcases hk with g | g
    · exact .inr (.inl g)
    · rcases ownedE_set es i c h g with g | g
      · exact .inl g
      · exact .inr (.inr g)

theorem ownedE_set_new {k : Nat} {e : Str × Node} : ∀ (es : List (Str × Node)) (i : Nat), i < es.length → k ∈ (owned e.2).map Ptr.blk →
    k ∈ (ownedE (es.set i e)).map Ptr.blk
  | (n, c0) :: es, 0, _, hk => by
    obtain ⟨a, b⟩ := e
    rw [List.set_cons_zero, ownedE, List.map_append]
    exact List.mem_append_left _ hk
  | (n, c0) :: es, i + 1, h, hk => by
    rw [List.set_cons_succ, ownedE, List.map_append]
    exact List.mem_append_right _ (ownedE_set_new es i (by simpa using h) hk)

theorem cleanE_get : ∀ (es : List (Str × Node)) (i : Nat) (c : Str × Node), es[i]? = some c → CleanE es → Clean c.2
  | (n, c0) :: es, 0, c, h, hc => by
    rw [List.getElem?_cons_zero] at h
    injection h with h
    subst h
    exact hc.1
  | (n, c0) :: es, i + 1, c, h, hc => by
    rw [List.getElem?_cons_succ] at h
    exact cleanE_get es i c h hc.2

theorem cleanE_set {e : Str × Node} (he : Clean e.2) : ∀ (es : List (Str × Node)) (i : Nat), CleanE es → CleanE (es.set i e)
  | [], _, _ => trivial
  | _ :: _, 0, hc => ⟨he, hc.2⟩
  | _ :: es, i + 1, hc => ⟨hc.1, cleanE_set he es i hc.2⟩

theorem cleanE_append : ∀ (es fs : List (Str × Node)), CleanE es → CleanE fs → CleanE (es ++ fs)
  | [], _, _, h => h
  | (_, _) :: es, fs, h, g => ⟨h.1, cleanE_append es fs h.2 g⟩

theorem ownedE_append : ∀ (es fs : List (Str × Node)), ownedE (es ++ fs) = ownedE es ++ ownedE fs
  | [], _ => rfl
  | (_, c) :: es, fs => by rw [List.cons_append, ownedE, ownedE_append es fs, ownedE, List.append_assoc]

theorem addChild_own {dest : Node} {name : Str} {a : Info × List (Str × Node) × Nat} (hc : Clean dest) (h : dest.addChild name = .ok a) :
    owned (.obj a.1 a.2.1) = owned dest ∧ Clean (.obj a.1 a.2.1) ∧ ∃ c, a.2.1[a.2.2]? = some c := by
  unfold addChild at h
  split at h
  · rename_i x es
    split at h
    · rename_i i hi
      injection h with h
      subst h
      refine ⟨rfl, hc, ?_⟩
      unfold posOf at hi
      have := (List.findIdx?_eq_some_iff_getElem.1 hi).1
      exact ⟨_, List.getElem?_eq_getElem this⟩
    · injection h with h
      subst h
      refine ⟨?_, ⟨hc.1, cleanE_append _ _ hc.2 ⟨clean_new, trivial⟩⟩, (name, new), by simp⟩
      simp [owned, ownedE_append, ownedE, new, ownPtr]
  · injection h with h
    subst h
    exact ⟨by simp [owned, ownedE, new, ownPtr], ⟨hc.1, clean_new, trivial⟩, (name, new), rfl⟩
  · split at h
    · rename_i x cs he
      injection h with h
      subst h
      have : cs = [] := by simpa using he
      subst this
      exact ⟨by simp [owned, ownedE, ownedL, new, ownPtr], ⟨hc.1, clean_new, trivial⟩, (name, new), rfl⟩
    · cases h

theorem noLeak_refl (m : Mem) (n : Node) : NoLeak m n m n := by
  intro k hk
  by_cases ho : k ∈ (owned n).map Ptr.blk
  · exact .inl ho
  · exact .inr ⟨hk, ho⟩

mutual
theorem update_leak : ∀ (src : Node) {dest n' : Node} {m m' : Mem}, Clean dest → update src dest m = .ok (m', n') → NoLeak m dest m' n' ∧ Clean n'
  | .obj x es, dest, n', m, m', hc, h => by
    rw [update] at h
    exact updateE_leak es hc h
  | .lst x es, .lst y ds, n', m, m', hc, h => by
    rw [update] at h
    obtain ⟨r, h1, h2⟩ := of_bind h
    injection h2 with h2
    injection h2 with h2 h3
    subst h2
    subst h3
    obtain ⟨g1, g2⟩ := updateL_leak es hc.2 h1
    refine ⟨fun k hk => ?_, hc.1, g2⟩
    rw [owned, owned, List.map_append, List.map_append, List.mem_append, List.mem_append]
    rcases g1 k hk with g | ⟨g, g'⟩
    · exact .inl (.inr g)
    · by_cases hy : k ∈ (ownPtr y).map Ptr.blk
      · exact .inl (.inl hy)
      · exact .inr ⟨g, by rintro (h | h); exacts [hy h, g' h]⟩
  | .lst x es, .leaf y e, n', m, m', hc, h => by
    simp only [update] at h
    split at h
    · injection h with h
      injection h with h h'
      subst h
      subst h'
      exact ⟨noLeak_refl _ _, hc⟩
    · obtain ⟨r, h1, h2⟩ := of_bind h
      obtain ⟨s, h3, h4⟩ := of_bind h2
      injection h4 with h4
      injection h4 with h4 h5
      subst h4
      subst h5
      unfold initList at h1
      obtain ⟨q, h5, h6⟩ := of_bind h1
      have c1 := clean_init (m' := q.1) (n' := q.2) hc (by decide) h5
      have n1 := init_noLeak (m' := q.1) (n' := q.2) hc h5
      split at h6
      · rename_i z cs hz
        injection h6 with h6
        subst h6
        rw [hz] at c1 n1
        obtain ⟨g1, g2⟩ := updateL_leak es c1.2 h3
        refine ⟨C107_sequence n1 fun k hk => ?_, c1.1, g2⟩
        rw [owned, owned, List.map_append, List.map_append, List.mem_append, List.mem_append]
        rcases g1 k hk with g | ⟨g, g'⟩
        · exact .inl (.inr g)
        · by_cases hy : k ∈ (ownPtr z).map Ptr.blk
          · exact .inl (.inl hy)
          · exact .inr ⟨g, by rintro (h | h); exacts [hy h, g' h]⟩
      · cases h6
  | .lst x es, .obj y fs, n', m, m', hc, h => by
    simp only [update] at h
    split at h
    · injection h with h
      injection h with h h'
      subst h
      subst h'
      exact ⟨noLeak_refl _ _, hc⟩
    · obtain ⟨r, h1, h2⟩ := of_bind h
      obtain ⟨s, h3, h4⟩ := of_bind h2
      injection h4 with h4
      injection h4 with h4 h5
      subst h4
      subst h5
      unfold initList at h1
      obtain ⟨q, h5, h6⟩ := of_bind h1
      have c1 := clean_init (m' := q.1) (n' := q.2) hc (by decide) h5
      have n1 := init_noLeak (m' := q.1) (n' := q.2) hc h5
      split at h6
      · rename_i z cs hz
        injection h6 with h6
        subst h6
        rw [hz] at c1 n1
        obtain ⟨g1, g2⟩ := updateL_leak es c1.2 h3
        refine ⟨C107_sequence n1 fun k hk => ?_, c1.1, g2⟩
        rw [owned, owned, List.map_append, List.map_append, List.mem_append, List.mem_append]
        rcases g1 k hk with g | ⟨g, g'⟩
        · exact .inl (.inr g)
        · by_cases hy : k ∈ (ownPtr z).map Ptr.blk
          · exact .inl (.inl hy)
          · exact .inr ⟨g, by rintro (h | h); exacts [hy h, g' h]⟩
      · cases h6
  | .leaf x d, dest, n', m, m', hc, h => by
    rw [update] at h
    unfold updateLeaf at h
    split at h
    · injection h with h
      injection h with h h'
      subst h
      subst h'
      exact ⟨noLeak_refl _ _, hc⟩
    · split at h
      · split at h
        · cases h
        · obtain ⟨m1, h1, h2⟩ := of_bind h
          injection h2 with h2
          injection h2 with h2 h3
          subst h2
          subst h3
          exact ⟨(noLeak_refl _ _).le (le_strided h1), hc⟩
      · exact ⟨C107_compact_to hc h, clean_compactTo hc h⟩
theorem updateE_leak : ∀ (es : List (Str × Node)) {dest n' : Node} {m m' : Mem}, Clean dest → updateE es dest m = .ok (m', n') →
    NoLeak m dest m' n' ∧ Clean n'
  | [], dest, n', m, m', hc, h => by
    rw [updateE] at h
    injection h with h
    injection h with h h'
    subst h
    subst h'
    exact ⟨noLeak_refl _ _, hc⟩
  | (n, c) :: es, dest, n', m, m', hc, h => by
    rw [updateE] at h
    obtain ⟨a, h1, h2⟩ := of_bind h
    obtain ⟨r, h3, h4⟩ := of_bind h2
    obtain ⟨a1, a2, e, a3⟩ := addChild_own hc h1
    rw [a3] at h3
    obtain ⟨u1, u2⟩ := update_leak c (m' := r.1) (n' := r.2) (cleanE_get _ _ _ a3 a2.2) h3
    obtain ⟨v1, v2⟩ := updateE_leak es (dest := .obj a.1 (a.2.1.set a.2.2 (n, r.2))) ⟨a2.1, cleanE_set u2 _ _ a2.2⟩ h4
    refine ⟨C107_sequence (fun k hk => ?_) v1, v2⟩
    rw [← a1, owned, owned, List.map_append, List.map_append, List.mem_append, List.mem_append]
    rcases u1 k hk with g | ⟨g, g'⟩
    · exact .inl (.inr (ownedE_set_new _ _ (List.getElem?_eq_some_iff.1 a3).1 g))
    · by_cases hy : k ∈ (ownPtr a.1).map Ptr.blk
      · exact .inl (.inl hy)
      · by_cases hz : k ∈ (ownedE a.2.1).map Ptr.blk
        · rcases ownedE_set (e := (n, r.2)) _ _ _ a3 hz with h | h
          · exact absurd h g'
          · exact .inl (.inr h)
        · exact .inr ⟨g, by rintro (h | h); exacts [hy h, hz h]⟩
theorem updateL_leak : ∀ (es : List Node) {ds ns : List Node} {m m' : Mem}, CleanL ds → updateL es ds m = .ok (m', ns) →
    (∀ k, Live m' k → k ∈ (ownedL ns).map Ptr.blk ∨ (Live m k ∧ k ∉ (ownedL ds).map Ptr.blk)) ∧ CleanL ns
  | [], ds, ns, m, m', hc, h => by
    rw [updateL] at h
    injection h with h
    injection h with h h'
    subst h
    subst h'
    refine ⟨fun k hk => ?_, hc⟩
    by_cases ho : k ∈ (ownedL ds).map Ptr.blk
    · exact .inl ho
    · exact .inr ⟨hk, ho⟩
  | c :: es, [], ns, m, m', hc, h => by
    rw [updateL] at h
    obtain ⟨r, h1, h2⟩ := of_bind h
    obtain ⟨s, h3, h4⟩ := of_bind h2
    injection h4 with h4
    injection h4 with h4 h5
    subst h4
    subst h5
    obtain ⟨u1, u2⟩ := update_leak c (m' := r.1) (n' := r.2) clean_new h1
    obtain ⟨v1, v2⟩ := updateL_leak es hc h3
    refine ⟨fun k hk => ?_, u2, v2⟩
    rw [show ownedL (r.2 :: s.2) = owned r.2 ++ ownedL s.2 from rfl, List.map_append, List.mem_append]
    rcases v1 k hk with g | ⟨g, _⟩
    · exact .inl (.inr g)
    · rcases u1 k g with g | ⟨g, _⟩
      · exact .inl (.inl g)
      · exact .inr ⟨g, by simp [ownedL]⟩
  | c :: es, d :: ds, ns, m, m', hc, h => by
    rw [updateL] at h
    obtain ⟨r, h1, h2⟩ := of_bind h
    obtain ⟨s, h3, h4⟩ := of_bind h2
    injection h4 with h4
    injection h4 with h4 h5
    subst h4
    subst h5
    obtain ⟨u1, u2⟩ := update_leak c (m' := r.1) (n' := r.2) hc.1 h1
    obtain ⟨v1, v2⟩ := updateL_leak es hc.2 h3
    refine ⟨fun k hk => ?_, u2, v2⟩
    rw [ownedL, ownedL, List.map_append, List.map_append, List.mem_append, List.mem_append]
    rcases v1 k hk with g | ⟨g, g'⟩
    · exact .inl (.inr g)
    · rcases u1 k g with g | ⟨g, g2⟩
      · exact .inl (.inl g)
      · exact .inr ⟨g, by rintro (h | h); exacts [g2 h, g' h]⟩
end

/-- C107: `update` -/
theorem C107_update {src dest n' : Node} {m m' : Mem} (hc : Clean dest) (h : update src dest m = .ok (m', n')) : NoLeak m dest m' n' :=
  (update_leak src hc h).1

mutual
theorem compat_leak : ∀ (src : Node) {dest n' : Node} {m m' : Mem}, Clean dest → updateCompatible src dest m = .ok (m', n') → NoLeak m dest m' n' ∧ Clean n'
  | .obj x es, dest, n', m, m', hc, h => by
    rw [updateCompatible] at h
    exact compatE_leak es hc h
  | .lst x es, .lst y ds, n', m, m', hc, h => by
    rw [updateCompatible] at h
    obtain ⟨r, h1, h2⟩ := of_bind h
    injection h2 with h2
    injection h2 with h2 h3
    subst h2
    subst h3
    obtain ⟨g1, g2⟩ := compatL_leak es hc.2 h1
    refine ⟨fun k hk => ?_, hc.1, g2⟩
    rw [owned, owned, List.map_append, List.map_append, List.mem_append, List.mem_append]
    rcases g1 k hk with g | ⟨g, g'⟩
    · exact .inl (.inr g)
    · by_cases hy : k ∈ (ownPtr y).map Ptr.blk
      · exact .inl (.inl hy)
      · exact .inr ⟨g, by rintro (h | h); exacts [hy h, g' h]⟩
  | .lst x es, .leaf y e, n', m, m', hc, h => by
    simp only [updateCompatible] at h
    injection h with h
    injection h with h h'
    subst h
    subst h'
    exact ⟨noLeak_refl _ _, hc⟩
  | .lst x es, .obj y e, n', m, m', hc, h => by
    simp only [updateCompatible] at h
    injection h with h
    injection h with h h'
    subst h
    subst h'
    exact ⟨noLeak_refl _ _, hc⟩
  | .leaf x d, dest, n', m, m', hc, h => by
    rw [updateCompatible] at h
    split at h
    · injection h with h
      injection h with h h'
      subst h
      subst h'
      exact ⟨noLeak_refl _ _, hc⟩
    · split at h
      · exact update_leak (.leaf x d) hc (by rw [update]; exact h)
      · injection h with h
        injection h with h h'
        subst h
        subst h'
        exact ⟨noLeak_refl _ _, hc⟩
theorem compatE_leak : ∀ (es : List (Str × Node)) {dest n' : Node} {m m' : Mem}, Clean dest → updateCompatibleE es dest m = .ok (m', n') →
    NoLeak m dest m' n' ∧ Clean n'
  | [], dest, n', m, m', hc, h => by
    rw [updateCompatibleE] at h
    injection h with h
    injection h with h h'
    subst h
    subst h'
    exact ⟨noLeak_refl _ _, hc⟩
  | (n, c) :: es, .leaf y e, n', m, m', hc, h => by
    simp only [updateCompatibleE] at h
    exact compatE_leak es hc h
  | (n, c) :: es, .lst y e, n', m, m', hc, h => by
    simp only [updateCompatibleE] at h
    exact compatE_leak es hc h
  | (n, c) :: es, .obj y ds, n', m, m', hc, h => by
    simp only [updateCompatibleE] at h
    split at h
    · rename_i i hi
      obtain ⟨r, h3, h4⟩ := of_bind h
      unfold posOf at hi
      have a3 := List.getElem?_eq_getElem (List.findIdx?_eq_some_iff_getElem.1 hi).1
      rw [a3] at h3
      obtain ⟨u1, u2⟩ := compat_leak c (m' := r.1) (n' := r.2) (cleanE_get _ _ _ a3 hc.2) h3
      obtain ⟨v1, v2⟩ := compatE_leak es (dest := .obj y (ds.set i (n, r.2))) ⟨hc.1, cleanE_set u2 _ _ hc.2⟩ h4
      refine ⟨C107_sequence (fun k hk => ?_) v1, v2⟩
      rw [owned, owned, List.map_append, List.map_append, List.mem_append, List.mem_append]
      rcases u1 k hk with g | ⟨g, g'⟩
      · exact .inl (.inr (ownedE_set_new _ _ (List.getElem?_eq_some_iff.1 a3).1 g))
      · by_cases hy : k ∈ (ownPtr y).map Ptr.blk
        · exact .inl (.inl hy)
        · by_cases hz : k ∈ (ownedE ds).map Ptr.blk
          · rcases ownedE_set (e := (n, r.2)) _ _ _ a3 hz with h | h
            · exact absurd h g'
            · exact .inl (.inr h)
          · exact .inr ⟨g, by rintro (h | h); exacts [hy h, hz h]⟩
    · exact compatE_leak es hc h
theorem compatL_leak : ∀ (es : List Node) {ds ns : List Node} {m m' : Mem}, CleanL ds → updateCompatibleL es ds m = .ok (m', ns) →
    (∀ k, Live m' k → k ∈ (ownedL ns).map Ptr.blk ∨ (Live m k ∧ k ∉ (ownedL ds).map Ptr.blk)) ∧ CleanL ns
  | [], ds, ns, m, m', hc, h => by
    rw [updateCompatibleL] at h
    injection h with h
    injection h with h h'
    subst h
    subst h'
    refine ⟨fun k hk => ?_, hc⟩
    by_cases ho : k ∈ (ownedL ds).map Ptr.blk
    · exact .inl ho
    · exact .inr ⟨hk, ho⟩
  | c :: es, [], ns, m, m', hc, h => by
    rw [updateCompatibleL] at h
    injection h with h
    injection h with h h'
    subst h
    subst h'
    exact ⟨fun k hk => .inr ⟨hk, by simp [ownedL]⟩, hc⟩
  | c :: es, d :: ds, ns, m, m', hc, h => by
    rw [updateCompatibleL] at h
    obtain ⟨r, h1, h2⟩ := of_bind h
    obtain ⟨s, h3, h4⟩ := of_bind h2
    injection h4 with h4
    injection h4 with h4 h5
    subst h4
    subst h5
    obtain ⟨u1, u2⟩ := compat_leak c (m' := r.1) (n' := r.2) hc.1 h1
    obtain ⟨v1, v2⟩ := compatL_leak es hc.2 h3
    refine ⟨fun k hk => ?_, u2, v2⟩
    rw [ownedL, ownedL, List.map_append, List.map_append, List.mem_append, List.mem_append]
    rcases v1 k hk with g | ⟨g, g'⟩
    · exact .inl (.inr g)
    · rcases u1 k g with g | ⟨g, g2⟩
      · exact .inl (.inl g)
      · exact .inr ⟨g, by rintro (h | h); exacts [g2 h, g' h]⟩
end

/-- C107: `update_compatible` -/
theorem C107_update_compatible {src dest n' : Node} {m m' : Mem} (hc : Clean dest) (h : updateCompatible src dest m = .ok (m', n')) :
    NoLeak m dest m' n' :=
  (compat_leak src hc h).1

/-! #### histories -/

/-- What a program does with a node.  A schema is not the empty one and its size is not negative. -/
inductive Step : Mem → Node → Mem → Node → Prop
  | reset {m m' n n'} : n.reset m = .ok (m', n') → Step m n m' n'
  | set {m m' n n'} (src : Node) : setNode src n m = .ok (m', n') → Step m n m' n'
  | compact {m m' n n'} (src : Node) : compactTo src n m = .ok (m', n') → Step m n m' n'
  | update {m m' n n'} (src : Node) : Node.update src n m = .ok (m', n') → Step m n m' n'
  | compatible {m m' n n'} (src : Node) : updateCompatible src n m = .ok (m', n') → Step m n m' n'
  | scalar {m m' n n'} (t : TypeId) (bytes : List UInt8) : setScalar t bytes n m = .ok (m', n') → Step m n m' n'
  | vector {m m' n n'} (t : TypeId) (es : List (List UInt8)) : setVector t es n m = .ok (m', n') → Step m n m' n'
  | string {m m' n n'} (text : List UInt8) : setString text n m = .ok (m', n') → Step m n m' n'
  | external {m m' n n'} (d : DataType) (p : Option Ptr) : setExternalPtr d p n m = .ok (m', n') → Step m n m' n'
  | externalSchema {m m' n n'} (s : Schema) (p : Option Ptr) : setExternalSchema s p n m = .ok (m', n') → Step m n m' n'
  | schema {m m' n n'} (s : Schema) : (∀ d, s = .leaf d → d.id ≠ .empty) → 0 ≤ s.spannedBytes → setSchema s n m = .ok (m', n') → Step m n m' n'
  | schemaData {m m' n n'} (s : Schema) (p : Option Ptr) : (∀ d, s = .leaf d → d.id ≠ .empty) → setSchemaData s p n m = .ok (m', n') → Step m n m' n'
  | array {m m' n n'} (s : DataType) (p : Option Ptr) : 0 ≤ s.n → setArray s p n m = .ok (m', n') → Step m n m' n'
  | externalNode {m m' n n'} (src : Node) : setExternalNode src n m = .ok (m', n') → Step m n m' n'
  | load {m m' n n'} (s : Schema) (file : List UInt8) : (∀ d, s = .leaf d → d.id ≠ .empty) → 0 ≤ s.spannedBytes →
      loadBin s file n m = .ok (m', n') → Step m n m' n'
  | listOf {m m' n n'} (s : Schema) (k : Nat) : 0 ≤ s.compactTo.totalBytesCompact → Node.listOf s k n m = .ok (m', n') → Step m n m' n'

inductive Steps : Mem → Node → Mem → Node → Prop
  | nil {m n} : Steps m n m n
  | cons {m n m1 n1 m2 n2} : Steps m n m1 n1 → Step m1 n1 m2 n2 → Steps m n m2 n2

theorem span_ofId (t : TypeId) (k : Nat) : 0 ≤ (DataType.ofId t k).spannedBytes := by
  unfold DataType.spannedBytes DataType.ofId
  have : (0 : Int) ≤ (t.bytes : Int) * (k : Int) := by positivity
  simp only [Int.mul_sub, Int.mul_one]
  omega

theorem step_leak {m m' : Mem} {n n' : Node} (h : Step m n m' n') (hc : Clean n) : NoLeak m n m' n' ∧ Clean n' := by
  cases h with
  | reset h => exact ⟨(C107_reset hc h).2, clean_reset hc h⟩
  | set src h => exact ⟨C107_set src hc h, clean_set src hc h⟩
  | compact src h => exact ⟨C107_compact_to hc h, clean_compactTo hc h⟩
  | update src h => exact update_leak src hc h
  | compatible src h => exact compat_leak src hc h
  | scalar t bytes h =>
    refine ⟨C107_set_scalar hc h, ?_⟩
    unfold setScalar at h
    obtain ⟨r, h1, h2⟩ := of_bind h
    obtain ⟨m2, h3, h4⟩ := of_bind h2
    injection h4 with h4
    injection h4 with h4 h5
    subst h5
    exact clean_init (m' := r.1) (n' := r.2) hc (span_ofId t 1) h1
  | vector t es h =>
    refine ⟨C107_set_vector hc h, ?_⟩
    unfold setVector at h
    obtain ⟨r, h1, h2⟩ := of_bind h
    obtain ⟨m2, h3, h4⟩ := of_bind h2
    injection h4 with h4
    injection h4 with h4 h5
    subst h5
    exact clean_init (m' := r.1) (n' := r.2) hc (span_ofId t es.length) h1
  | string text h =>
    refine ⟨C107_set_string hc h, ?_⟩
    unfold setString at h
    obtain ⟨r, h1, h2⟩ := of_bind h
    obtain ⟨m2, h3, h4⟩ := of_bind h2
    injection h4 with h4
    injection h4 with h4 h5
    subst h5
    exact clean_init (m' := r.1) (n' := r.2) hc (span_ofId .char8Str _) h1
  | external d p h =>
    refine ⟨(C107_set_external hc h).2, ?_⟩
    unfold setExternalPtr at h
    obtain ⟨m1, h1, h2⟩ := of_bind h
    injection h2 with h2
    injection h2 with h2 h3
    subst h3
    exact ⟨by simp [CleanInfo, releasedInfo_clean hc], fun _ => releasedInfo_clean hc⟩
  | externalSchema s p h =>
    refine ⟨(C107_set_external_schema hc h).2, ?_⟩
    unfold setExternalSchema at h
    obtain ⟨r, h1, h2⟩ := of_bind h
    injection h2 with h2
    injection h2 with h2 h3
    subst h3
    obtain ⟨_, g2⟩ := gone_reset (m' := r.1) (k := r.2) hc h1
    rw [g2, show (Node.leaf n.releasedInfo {}).info.alloced = false from releasedInfo_clean hc]
    exact (walk_false _ _).1
  | schema s he hs h =>
    refine ⟨C107_set_schema hc h, ?_⟩
    unfold setSchema at h
    obtain ⟨m1, h1, h2⟩ := of_bind h
    injection h2 with h2
    injection h2 with h2 h3
    subst h3
    obtain ⟨p, hp⟩ := clean_allocate (m := m1) hs
    rw [hp]
    exact (walk_true p s he).1
  | schemaData s p he h =>
    refine ⟨C107_set_schema_data hc h, ?_⟩
    unfold setSchemaData at h
    obtain ⟨m1, h1, h2⟩ := of_bind h
    obtain ⟨m2, h3, h4⟩ := of_bind h2
    injection h4 with h4
    injection h4 with h4 h5
    subst h5
    split at h3
    · cases h3
    · rename_i hs
      obtain ⟨p, hp⟩ := clean_allocate (m := m1) (k := s.spannedBytes) (by omega)
      rw [hp]
      exact (walk_true p s he).1
  | array s p hn h =>
    refine ⟨C107_set_array hc h, ?_⟩
    unfold setArray at h
    obtain ⟨r, h1, h2⟩ := of_bind h
    obtain ⟨m2, h3, h4⟩ := of_bind h2
    injection h4 with h4
    injection h4 with h4 h5
    subst h5
    obtain ⟨k, hk⟩ := Int.eq_ofNat_of_zero_le hn
    exact clean_init (m' := r.1) (n' := r.2) hc (hk ▸ span_ofId s.id k) h1
  | externalNode src h =>
    obtain ⟨h1, h2, h3⟩ := C107_set_external_node hc h
    exact ⟨h3, h2⟩
  | load s file he hs h =>
    refine ⟨C107_load hc h, ?_⟩
    unfold loadBin at h
    obtain ⟨r, h1, h2⟩ := of_bind h
    obtain ⟨m2, h3, h4⟩ := of_bind h2
    injection h4 with h4
    injection h4 with h4 h5
    subst h5
    obtain ⟨p, hp⟩ := clean_allocate (m := r.1) hs
    rw [hp]
    exact (walk_true p s he).1
  | listOf s k hs h =>
    refine ⟨C107_list_of hc h, ?_⟩
    unfold Node.listOf at h
    obtain ⟨r, h1, h2⟩ := of_bind h
    injection h2 with h2
    injection h2 with h2 h3
    subst h3
    obtain ⟨p, hp⟩ := clean_allocate (m := r.1) (k := s.compactTo.totalBytesCompact * k) (Int.mul_nonneg hs (by omega))
    refine ⟨by rw [hp]; simp [CleanInfo], ?_⟩
    unfold listEntries
    generalize List.range k = l
    induction l with
    | nil => trivial
    | cons i l ih => exact ⟨(walk_false _ _).1, ih⟩

/-- C107: whatever a program did with a new node, and whatever memory there is besides: once the node is reset (or destroyed) no block is live that was not live
    before the node was made. -/
theorem C107_history {m m1 m2 : Mem} {n n2 : Node} (hs : Steps m new m1 n) (h : n.reset m1 = .ok (m2, n2)) : ∀ k, Live m2 k → Live m k := by
  have key : NoLeak m new m1 n ∧ Clean n := by
    clear h
    generalize ha : new = a at hs
    induction hs with
    | nil => subst ha; exact ⟨noLeak_refl _ _, clean_new⟩
    | cons _ st ih =>
      obtain ⟨h1, h2⟩ := ih
      obtain ⟨h3, h4⟩ := step_leak st h2
      exact ⟨C107_sequence h1 h3, h4⟩
  intro k hk
  obtain ⟨h1, h2⟩ := C107_reset key.2 h
  rcases C107_sequence key.1 h2 k hk with h | h
  · rw [h1] at h; cases h
  · exact h.1

/-! ### a case, and what is false -/

/-- a tree of an array and a string, in memory where another node has block 0 -/
def leakMem : Mem := [some [1, 2, 3], some [4, 5], some [6]]
def leakNode : Node := .obj {} [(chars! "a", .leaf ⟨some ⟨1, 0⟩, true⟩ (DataType.ofId .uint8 2)), (chars! "b", .leaf ⟨some ⟨2, 0⟩, true⟩ (DataType.ofId .uint8 1))]

example : Clean leakNode := by simp [leakNode, Clean, CleanE, CleanInfo, DataType.ofId]

/-- a copy of the tree, then a number, then nothing -/
theorem C107_history_example : ∃ m1 n m2 n2, Steps leakMem new m1 n ∧ m1 = [some [1, 2, 3], some [4, 5], some [6], none, none, some [9]] ∧
    n.reset m1 = .ok (m2, n2) ∧ m2 = [some [1, 2, 3], some [4, 5], some [6], none, none, none] :=
  ⟨_, _, _, _, .cons (.cons .nil (.set leakNode rfl)) (.scalar .uint8 [9] rfl), rfl, rfl, rfl⟩

/-- a scalar is set: the buffers of the tree are freed, block 0 stays, one block is new -/
theorem C107_example : (setScalar .uint8 [9] leakNode leakMem).bind (fun r => .ok (r.1, (owned r.2).map Ptr.blk)) =
    .ok ([some [1, 2, 3], none, none, some [9]], [3]) := by decide +kernel

/-- C107 is false for a node that was set to an empty schema: it owns a block of no bytes, which `reset` does not free, since `release`
    frees nothing of a node of the empty type (conduit_node.cpp:17324); the next `set` loses it. -/
theorem C107_empty_schema_false : ∃ m1 n1 m2 n2, setSchema (.leaf {}) new [] = .ok (m1, n1) ∧ setScalar .uint8 [9] n1 m1 = .ok (m2, n2) ∧
    ¬ Clean n1 ∧ ¬ NoLeak m1 n1 m2 n2 := by
  refine ⟨[some []], .leaf ⟨some ⟨0, 0⟩, true⟩ {}, [some [], some [9]], .leaf ⟨some ⟨1, 0⟩, true⟩ (DataType.ofId .uint8 1), by rfl, by rfl, ?_, ?_⟩
  · simp [Clean]
  · intro h
    rcases h 0 ⟨[], rfl⟩ with h | h
    · simp [owned, ownPtr] at h
    · exact h.2 (by simp [owned, ownPtr])

end Conduit
