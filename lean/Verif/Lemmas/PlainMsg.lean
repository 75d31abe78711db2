import Verif.Model.PlainMsg
import Verif.Spec.PlainMsg
import Verif.Lemmas.Bcast2
import Verif.Props.Contiguous
namespace Conduit
namespace Relay
open Spec Spec.Tree Schema Node

/-! ### values and their bytes -/

mutual
theorem readable_flat {m : Mem} : ∀ n : Node, Readable m n → ∀ b ∈ flat (val m n), b.isSome
  | .leaf x d, h, b, hb => by
    rw [val] at hb
    split at hb
    · simp [flat] at hb
    · rename_i he
      rw [flat, List.mem_flatten] at hb
      obtain ⟨e, h1, h2⟩ := hb
      exact h.2.2.2 he e h1 b h2
  | .obj x es, h, b, hb => readable_flatE es h b hb
  | .lst x es, h, b, hb => readable_flatL es h b hb
theorem readable_flatE {m : Mem} : ∀ es : List (Str × Node), ReadableE m es → ∀ b ∈ flatE (valE m es), b.isSome
  | [], _, b, hb => by simp [valE, flatE] at hb
  | (n, c) :: es, h, b, hb => by
    rw [valE, flatE, List.mem_append] at hb
    exact hb.elim (readable_flat c h.1 b) (readable_flatE es h.2 b)
theorem readable_flatL {m : Mem} : ∀ es : List Node, ReadableL m es → ∀ b ∈ flatL (valL m es), b.isSome
  | [], _, b, hb => by simp [valL, flatL] at hb
  | c :: es, h, b, hb => by
    rw [valL, flatL, List.mem_append] at hb
    exact hb.elim (readable_flat c h.1 b) (readable_flatL es h.2 b)
end

mutual
theorem readable_of_flat {m : Mem} : ∀ n : Node, (∀ d ∈ n.schema.leaves, LeafOK d) → (∀ b ∈ flat (val m n), b.isSome) → Readable m n
  | .leaf x d, h, hb => by
    have h := h d (by simp [schema, leaves])
    refine ⟨h.2.1, h.2.2, h.1, fun he e h1 b h2 => hb b ?_⟩
    rw [val, if_neg he, flat, List.mem_flatten]
    exact ⟨e, h1, h2⟩
  | .obj x es, h, hb => readable_of_flatE es h hb
  | .lst x es, h, hb => readable_of_flatL es h hb
theorem readable_of_flatE {m : Mem} : ∀ es : List (Str × Node), (∀ d ∈ leavesE (schemaE es), LeafOK d) →
    (∀ b ∈ flatE (valE m es), b.isSome) → ReadableE m es
  | [], _, _ => trivial
  | (n, c) :: es, h, hb => by
    rw [valE, flatE] at hb
    simp only [schemaE, leavesE, List.mem_append] at h
    exact ⟨readable_of_flat c (fun d hd => h d (.inl hd)) (fun b h => hb b (List.mem_append_left _ h)),
      readable_of_flatE es (fun d hd => h d (.inr hd)) (fun b h => hb b (List.mem_append_right _ h))⟩
theorem readable_of_flatL {m : Mem} : ∀ es : List Node, (∀ d ∈ leavesL (schemaL es), LeafOK d) →
    (∀ b ∈ flatL (valL m es), b.isSome) → ReadableL m es
  | [], _, _ => trivial
  | c :: es, h, hb => by
    rw [valL, flatL] at hb
    simp only [schemaL, leavesL, List.mem_append] at h
    exact ⟨readable_of_flat c (fun d hd => h d (.inl hd)) (fun b h => hb b (List.mem_append_left _ h)),
      readable_of_flatL es (fun d hd => h d (.inr hd)) (fun b h => hb b (List.mem_append_right _ h))⟩
end

/-- the bytes of a readable node -/
theorem flat_bytes_exist {m : Mem} {n : Node} (h : Readable m n) :
    ∃ bs : List UInt8, bs.map some = flat (val m n) ∧ (bs.length : Int) = totalBytesCompact n.schema := by
  have hf := readable_flat n h
  have : ∃ bs : List UInt8, bs.map some = flat (val m n) := by
    generalize flat (val m n) = l at hf
    induction l with
    | nil => exact ⟨[], rfl⟩
    | cons x l ih =>
      obtain ⟨bs, hbs⟩ := ih (fun b hb => hf b (List.mem_cons_of_mem _ hb))
      obtain ⟨v, hv⟩ := Option.isSome_iff_exists.1 (hf x (by simp))
      exact ⟨v :: bs, by rw [List.map_cons, hbs, hv]⟩
  obtain ⟨bs, hbs⟩ := this
  refine ⟨bs, hbs, (view_flat n m h bs hbs [some bs] (some ⟨0, 0⟩) ?_).2⟩
  intro i hi
  simp [Mem.byteAt, Mem.byte]

/-! ### blank -/

mutual
def blankS : Schema → Val
  | .leaf d => if d.id = .empty then .leaf .empty .default [] else .leaf d.id d.endian (List.replicate d.n.toNat (List.replicate d.id.bytes none))
  | .obj es => .obj (blankSE es)
  | .lst es => .lst (blankSL es)
def blankSE : List (Str × Schema) → List (Str × Val)
  | [] => []
  | (n, c) :: es => (n, blankS c) :: blankSE es
def blankSL : List Schema → List Val
  | [] => []
  | c :: es => blankS c :: blankSL es
end

mutual
theorem blank_val (m : Mem) : ∀ n : Node, blank (val m n) = blankS n.schema
  | .leaf x d => by
    rw [val, schema, blankS]
    split
    · rfl
    · rw [blank]
      congr 1
      apply List.ext_getElem?
      intro i
      by_cases hi : i < d.n.toNat
      · simp only [elems, List.getElem?_map, List.map_map, Function.comp_def, List.getElem?_range hi, Option.map_some, hi,
          List.getElem?_replicate, if_true, Option.some.injEq]
        apply List.ext_getElem? 
        intro k
        by_cases hk : k < d.id.bytes
        · simp [hk]
        · simp [hk]
      · rw [List.getElem?_eq_none (by simp [elems]; omega), List.getElem?_eq_none (by simp; omega)]
  | .obj x es => by rw [val, blank, schema, blankS, blank_valE m es]
  | .lst x es => by rw [val, blank, schema, blankS, blank_valL m es]
theorem blank_valE (m : Mem) : ∀ es : List (Str × Node), blankE (valE m es) = blankSE (schemaE es)
  | [] => rfl
  | (n, c) :: es => by rw [valE, blankE, schemaE, blankSE, blank_val m c, blank_valE m es]
theorem blank_valL (m : Mem) : ∀ es : List Node, blankL (valL m es) = blankSL (schemaL es)
  | [] => rfl
  | c :: es => by rw [valL, blankL, schemaL, blankSL, blank_val m c, blank_valL m es]
end

mutual
theorem blankS_compactAt : ∀ (s : Schema) (off : Int), blankS (compactAt s off) = blankS s
  | .leaf d, off => by
    by_cases he : d.id = .empty
    · simp [compactAt, blankS, he]
    · simp [compactAt, blankS, he, DataType.compactTo]
  | .obj es, off => by rw [compactAt, blankS, blankS, blankS_compactAtE es]
  | .lst es, off => by rw [compactAt, blankS, blankS, blankS_compactAtL es]
theorem blankS_compactAtE : ∀ (s : List (Str × Schema)) (off : Int), blankSE (compactAtE s off) = blankSE s
  | [], _ => rfl
  | (n, c) :: es, off => by rw [compactAtE, blankSE, blankSE, blankS_compactAt c, blankS_compactAtE es]
theorem blankS_compactAtL : ∀ (s : List Schema) (off : Int), blankSL (compactAtL s off) = blankSL s
  | [], _ => rfl
  | c :: es, off => by rw [compactAtL, blankSL, blankSL, blankS_compactAt c, blankS_compactAtL es]
end

theorem flatten_inj {a b : List (List (Option UInt8))} (h : a.map (fun x => x.map fun _ => (none : Option UInt8)) = b.map fun x => x.map fun _ => none)
    (hf : a.flatten = b.flatten) : a = b := by
  induction a generalizing b with
  | nil => cases b with
    | nil => rfl
    | cons _ _ => simp at h
  | cons x a ih => cases b with
    | nil => simp at h
    | cons y b =>
      rw [List.map_cons, List.map_cons] at h
      injection h with h1 h2
      have hl : x.length = y.length := by simpa using congrArg List.length h1
      rw [List.flatten_cons, List.flatten_cons] at hf
      obtain ⟨e1, e2⟩ := List.append_inj hf hl
      rw [e1, ih h2 e2]

mutual
theorem flat_blank_len : ∀ v : Val, (flat v).length = (flat (blank v)).length
  | .leaf id e es => by
    simp only [flat, blank, List.length_flatten, List.map_map]
    congr 1
    apply List.map_congr_left
    intro x _
    simp
  | .obj es => flat_blank_lenE es
  | .lst es => flat_blank_lenL es
theorem flat_blank_lenE : ∀ v : List (Str × Val), (flatE v).length = (flatE (blankE v)).length
  | [] => rfl
  | (n, c) :: es => by rw [flatE, blankE, flatE, List.length_append, List.length_append, flat_blank_len c, flat_blank_lenE es]
theorem flat_blank_lenL : ∀ v : List Val, (flatL v).length = (flatL (blankL v)).length
  | [] => rfl
  | c :: es => by rw [flatL, blankL, flatL, List.length_append, List.length_append, flat_blank_len c, flat_blank_lenL es]
end

mutual
/-- a value is its tree and its bytes -/
theorem blank_flat_inj : ∀ v w : Val, blank v = blank w → flat v = flat w → v = w
  | .leaf id e es, .leaf id' e' es', h, hf => by
    rw [blank, blank] at h
    injection h with h1 h2 h3
    rw [h1, h2, flatten_inj h3 hf]
  | .obj es, .obj es', h, hf => by
    rw [blank, blank] at h
    injection h with h
    rw [blank_flat_injE es es' h hf]
  | .lst es, .lst es', h, hf => by
    rw [blank, blank] at h
    injection h with h
    rw [blank_flat_injL es es' h hf]
  | .leaf _ _ _, .obj _, h, _ => by simp [blank] at h
  | .leaf _ _ _, .lst _, h, _ => by simp [blank] at h
  | .obj _, .leaf _ _ _, h, _ => by simp [blank] at h
  | .obj _, .lst _, h, _ => by simp [blank] at h
  | .lst _, .leaf _ _ _, h, _ => by simp [blank] at h
  | .lst _, .obj _, h, _ => by simp [blank] at h
theorem blank_flat_injE : ∀ v w : List (Str × Val), blankE v = blankE w → flatE v = flatE w → v = w
  | [], [], _, _ => rfl
  | [], (_, _) :: _, h, _ => by simp [blankE] at h
  | (_, _) :: _, [], h, _ => by simp [blankE] at h
  | (n, c) :: es, (n', c') :: es', h, hf => by
    rw [blankE, blankE] at h
    injection h with h1 h2
    injection h1 with h0 h1
    rw [flatE, flatE] at hf
    obtain ⟨e1, e2⟩ := List.append_inj hf (by rw [flat_blank_len c, flat_blank_len c', h1])
    rw [h0, blank_flat_inj c c' h1 e1, blank_flat_injE es es' h2 e2]
theorem blank_flat_injL : ∀ v w : List Val, blankL v = blankL w → flatL v = flatL w → v = w
  | [], [], _, _ => rfl
  | [], _ :: _, h, _ => by simp [blankL] at h
  | _ :: _, [], h, _ => by simp [blankL] at h
  | c :: es, c' :: es', h, hf => by
    rw [blankL, blankL] at h
    injection h with h1 h2
    rw [flatL, flatL] at hf
    obtain ⟨e1, e2⟩ := List.append_inj hf (by rw [flat_blank_len c, flat_blank_len c', h1])
    rw [blank_flat_inj c c' h1 e1, blank_flat_injL es es' h2 e2]
end

/-! ### merging a value into one of the same tree -/

theorem names_blankE : ∀ es : List (Str × Val), (blankE es).map Prod.fst = es.map Prod.fst
  | [] => rfl
  | (n, c) :: es => by rw [blankE, List.map_cons, List.map_cons, names_blankE es]

theorem upsert_at (n : Str) (f : Val → Val) (d : Val) (ds : List (Str × Val)) : ∀ A : List (Str × Val), n ∉ A.map Prod.fst →
    upsert n f (A ++ (n, d) :: ds) = A ++ (n, f d) :: ds
  | [], _ => by simp [upsert]
  | (k, a) :: A, h => by
    simp only [List.map_cons, List.mem_cons, not_or] at h
    rw [List.cons_append, upsert, if_neg (fun e => h.1 e.symm), upsert_at n f d ds A h.2, List.cons_append]

theorem entry_blankE (n : Str) : ∀ es : List (Str × Val), entry n (blankE es) = (entry n es).map blank
  | [] => rfl
  | (k, c) :: es => by
    rw [blankE, entry, entry]
    split
    · rfl
    · exact entry_blankE n es

theorem entry_of_mem {n : Str} {c : Val} : ∀ {es : List (Str × Val)}, (es.map Prod.fst).Nodup → (n, c) ∈ es → entry n es = some c
  | (k, d) :: es, hn, hm => by
    simp only [List.map_cons, List.nodup_cons] at hn
    rw [entry]
    rcases List.mem_cons.1 hm with h | h
    · injection h with h1 h2
      subst h1; subst h2
      rw [if_pos rfl]
    · rw [if_neg, entry_of_mem hn.2 h]
      rintro rfl
      exact hn.1 (List.mem_map.2 ⟨_, h, rfl⟩)

mutual
theorem merge_same : ∀ v w : Val, blank v = blank w → Proper v → DistinctV v → merge v w = v
  | .leaf id e es, w, h, hp, _ => by
    cases w with
    | obj _ => simp [blank] at h
    | lst _ => simp [blank] at h
    | leaf id' e' es' =>
      rw [blank, blank] at h
      injection h with h1 h2 h3
      subst h1; subst h2
      have hl : es.length = es'.length := by simpa using congrArg List.length h3
      rw [merge]
      split
      · rename_i he
        obtain ⟨_, rfl⟩ := hp he
        have : es' = [] := List.eq_nil_of_length_eq_zero (by rw [← hl]; rfl)
        rw [this]
      · rw [overLeaf, if_pos ⟨rfl, by omega⟩, List.drop_eq_nil_of_le (by omega), List.append_nil]
  | .obj es, w, h, hp, hd => by
    cases w with
    | leaf _ _ _ => simp [blank] at h
    | lst _ => simp [blank] at h
    | obj es' =>
      rw [blank, blank] at h
      injection h with h
      rw [merge]
      split
      · rename_i he
        have he : es = [] := by simpa using he
        subst he
        cases es' with
        | nil => rfl
        | cons _ _ => simp [blankE] at h
      · have := merge_sameE es es' [] h hp hd.1 (by simp) hd.2
        rw [show entries (.obj es') = [] ++ es' from rfl, this, List.nil_append]
  | .lst es, w, h, hp, hd => by
    cases w with
    | leaf _ _ _ => simp [blank] at h
    | obj _ => simp [blank] at h
    | lst es' =>
      rw [blank, blank] at h
      injection h with h
      rw [merge]
      split
      · rename_i he
        have he : es = [] := by simpa using he
        subst he
        cases es' with
        | nil => rfl
        | cons _ _ => simp [blankL] at h
      · rw [show items (.lst es') = es' from rfl, merge_sameL es es' h hp hd]
theorem merge_sameE : ∀ (es ds A : List (Str × Val)), blankE es = blankE ds → ProperE es → (es.map Prod.fst).Nodup →
    (∀ n ∈ es.map Prod.fst, n ∉ A.map Prod.fst) → DistinctVE es → mergeE es (A ++ ds) = A ++ es
  | [], [], A, _, _, _, _, _ => by simp [mergeE]
  | [], (_, _) :: _, _, h, _, _, _, _ => by simp [blankE] at h
  | (_, _) :: _, [], _, h, _, _, _, _ => by simp [blankE] at h
  | (n, c) :: es, (n', d) :: ds, A, h, hp, hn, hA, hd => by
    rw [blankE, blankE] at h
    injection h with h1 h2
    injection h1 with h0 h1
    subst h0
    simp only [List.map_cons, List.nodup_cons] at hn
    rw [mergeE, upsert_at _ _ _ _ _ (hA n (by simp)), merge_same c d h1 hp.1 hd.1]
    have := merge_sameE es ds (A ++ [(n, c)]) h2 hp.2 hn.2 (fun k hk => by
      simp only [List.map_append, List.map_cons, List.map_nil, List.mem_append, List.mem_singleton, not_or]
      exact ⟨hA k (by simp [hk]), fun he => hn.1 (he ▸ hk)⟩) hd.2
    simpa using this
theorem merge_sameL : ∀ (es ds : List Val), blankL es = blankL ds → ProperL es → DistinctVL es → mergeL es ds = es
  | [], [], _, _, _ => rfl
  | [], _ :: _, h, _, _ => by simp [blankL] at h
  | _ :: _, [], h, _, _ => by simp [blankL] at h
  | c :: es, d :: ds, h, hp, hd => by
    rw [blankL, blankL] at h
    injection h with h1 h2
    rw [mergeL, merge_same c d h1 hp.1 hd.1, merge_sameL es ds h2 hp.2 hd.2]
end

mutual
theorem fits_same : ∀ v w : Val, blank v = blank w → DistinctV v → Fits v w
  | .leaf _ _ _, _, _, _ => trivial
  | .obj es, w, h, hd => by
    cases w with
    | leaf _ _ _ => simp [blank] at h
    | lst _ => simp [blank] at h
    | obj es' =>
      rw [blank, blank] at h
      injection h with h
      refine ⟨fun _ => rfl, fits_sameE es es' (fun n s hm d he => ?_) hd.2⟩
      have h1 : entry n (blankE es) = some (blank s) := by rw [entry_blankE, entry_of_mem hd.1 hm]; rfl
      rw [h, entry_blankE, he] at h1
      injection h1 with h1
      exact h1.symm
  | .lst es, w, h, hd => by
    cases w with
    | leaf _ _ _ => simp [blank] at h
    | obj _ => simp [blank] at h
    | lst es' =>
      rw [blank, blank] at h
      injection h with h
      exact fits_sameL es es' h hd
theorem fits_sameE : ∀ (es ds : List (Str × Val)), (∀ n s, (n, s) ∈ es → ∀ d, entry n ds = some d → blank s = blank d) → DistinctVE es →
    FitsE es ds
  | [], _, _, _ => trivial
  | (n, c) :: es, ds, h, hd =>
    ⟨fun d he => fits_same c d (h n c (by simp) d he) hd.1, fits_sameE es ds (fun n s hm => h n s (List.mem_cons_of_mem _ hm)) hd.2⟩
theorem fits_sameL : ∀ (es ds : List Val), blankL es = blankL ds → DistinctVL es → FitsL es ds
  | [], _, _, _ => trivial
  | _ :: _, [], _, _ => trivial
  | c :: es, d :: ds, h, hd => by
    rw [blankL, blankL] at h
    injection h with h1 h2
    exact ⟨fits_same c d h1 hd.1, fits_sameL es ds h2 hd.2⟩
end

end Relay
end Conduit
