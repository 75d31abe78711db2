import Verif.Lemmas.MeshIO2
/-
Reading a domain by an index (C88).
-/
namespace Conduit.MeshIO
open Conduit.Mesh

section
variable {F : Type}

/-- An index by which a mesh of this name can be read. -/
structure Guide (name : Str) (ks : List (Str × BNode F)) : Prop where
  nodup : (ks.map (·.1)).Nodup
  kid : ∀ k ∈ ks, (k.1 = chars! "state" ∧ k.2.get (chars! "path") = .ok (.str (slash [name, chars! "state"])) ∧
      ∀ e ∈ k.2.items, ¬ Has e.2 (chars! "path")) ∨
    (k.1 ∈ collections ∧ ∃ es, k.2 = .obj es ∧ (es.map (·.1)).Nodup ∧
      ∀ e ∈ es, GoodName e.1 ∧ e.2.get (chars! "path") = .ok (.str (slash [name, k.1, e.1])))

/-- The tree path `tree` leads to the mesh `D` in the file. -/
structure Leads (file : BNode F) (tree : Str) (name : Str) (D : BNode F) : Prop where
  path : ∃ pre, (∀ s ∈ pre ++ [name], GoodName s) ∧ down file (pre ++ [name]) = .ok D ∧
    ∀ segs, segs ≠ [] → (∀ s ∈ segs, GoodName s) → joinPath tree (slash segs) = '/' :: slash (pre ++ segs)
  plain : Plain D
  tidy : tidy D = D

theorem good_coll {coll : Str} (h : coll ∈ collections) : GoodName coll := by
  revert h; revert coll; unfold GoodName; decide

theorem good_state : GoodName (chars! "state") := by unfold GoodName; decide

variable {file D : BNode F} {tree name : Str}

theorem down_plain {D x : BNode F} {segs : List Str} (hp : Plain D) (ht : MeshIO.tidy D = D) (hx : down D segs = .ok x) :
    Plain x ∧ MeshIO.tidy x = x := by
  induction segs generalizing D with
  | nil => injection hx with hx; subst hx; exact ⟨hp, ht⟩
  | cons s r ih =>
    rw [down] at hx
    rcases get_cases D s with ⟨y, hy⟩ | hy
    · rw [hy] at hx
      have hy' := hy
      rw [← ht, get_tidy_ok hy] at hy'
      injection hy' with hy'
      exact ih (hp.get hy) hy' hx
    · rw [hy] at hx; cases hx

theorem get_mem {ks : List (Str × BNode F)} (hn : (ks.map (·.1)).Nodup) {k : Str × BNode F} (h : k ∈ ks) :
    (BNode.obj ks).get k.1 = .ok k.2 := by
  induction ks with
  | nil => cases h
  | cons a ks ih =>
    rw [List.map_cons, List.nodup_cons] at hn
    rcases List.mem_cons.1 h with rfl | h'
    · exact get_cons_self ..
    · have hne : a.1 ≠ k.1 := fun e => hn.1 (by rw [e]; exact List.mem_map_of_mem h')
      obtain ⟨t, x⟩ := a
      rw [get_cons_ne hne]; exact ih hn.2 h'

theorem Leads.at (h : Leads file tree name D) (segs : List Str) (hg : ∀ s ∈ segs, GoodName s) :
    (hasPath file (joinPath tree (slash (name :: segs))) = true ↔ ∃ x, down D segs = .ok x) ∧
    ∀ x, down D segs = .ok x → readAt file (joinPath tree (slash (name :: segs))) .empty = .ok x := by
  obtain ⟨⟨pre, h1, h2, h3⟩, hp, ht⟩ := h
  have hn : GoodName name := h1 name (by simp)
  have hg' : ∀ s ∈ name :: segs, GoodName s := fun s hs => by
    rcases List.mem_cons.1 hs with rfl | hs
    · exact hn
    · exact hg s hs
  rw [h3 _ (by simp) hg']
  have hall : ∀ s ∈ pre ++ name :: segs, GoodName s := fun s hs => by
    rcases List.mem_append.1 hs with hs | hs
    · exact h1 s (List.mem_append_left _ hs)
    · exact hg' s hs
  have hd : down file (pre ++ name :: segs) = down D segs := by
    rw [show pre ++ name :: segs = (pre ++ [name]) ++ segs by simp, down_append, h2]; rfl
  refine ⟨by rw [hasPath_root (by simp) hall, hd], fun x hx => ?_⟩
  rw [readAt_root (by simp) hall (hd.trans hx)]
  have := down_plain hp ht hx
  rw [update_empty x this.1, this.2]

theorem down_two {D x : BNode F} {a b : Str} : down D [a, b] = .ok x ↔ Entry D a b x := by
  simp only [down]
  rcases get_cases D a with ⟨y, hy⟩ | hy
  · simp only [hy]
    constructor
    · intro h
      rcases get_cases y b with ⟨z, hz⟩ | hz
      · rw [hz] at h; exact ⟨y, hy, hz.trans h⟩
      · rw [hz] at h; cases h
    · rintro ⟨e, h1, h2⟩
      obtain rfl := get_inj hy h1
      rw [h2]
  · simp only [hy]
    constructor
    · intro h; cases h
    · rintro ⟨e, h1, -⟩; rw [hy] at h1; cases h1

/-- The child `name` of the child `coll` set. -/
def setTwo (coll name : Str) (x out : BNode F) : BNode F :=
  .obj (modKid coll (fun c => .obj (modKid name (fun _ => x) c.kids)) out.kids)

theorem get_setTwo {coll name f : Str} (x out : BNode F) (h : f ≠ coll) : (setTwo coll name x out).get f = out.get f := by
  unfold setTwo; rw [get_modKid_ne (Ne.symm h)]; rfl

theorem entry_setTwo {coll name n : Str} {x out c : BNode F} :
    Entry (setTwo coll name x out) coll n c ↔ (n = name ∧ c = x) ∨ (n ≠ name ∧ Entry out coll n c) := by
  have h : (setTwo coll name x out).get coll = .ok (.obj (modKid name (fun _ => x) (out.getOrEmpty coll).kids)) := by
    unfold setTwo; rw [get_modKid_self, getOrEmpty_kids]
  have he : ∀ c, (out.getOrEmpty coll).get n = .ok c ↔ Entry out coll n c := by
    intro c
    rcases get_cases out coll with ⟨y, hy⟩ | hy
    · rw [getOrEmpty_ok hy]
      exact ⟨fun q => ⟨y, hy, q⟩, fun ⟨e, h1, h2⟩ => by rw [get_inj hy h1]; exact h2⟩
    · rw [getOrEmpty_error hy]
      refine ⟨fun q => ?_, fun ⟨e, h1, _⟩ => by rw [hy] at h1; cases h1⟩
      exact absurd ⟨c, q⟩ (not_has_empty n)
  by_cases e : n = name
  · subst e
    constructor
    · rintro ⟨y, h1, h2⟩
      obtain rfl := get_inj h h1
      rw [get_modKid_self] at h2
      injection h2 with h2
      exact .inl ⟨rfl, h2.symm⟩
    · rintro (⟨-, rfl⟩ | ⟨q, -⟩)
      · exact ⟨_, h, get_modKid_self ..⟩
      · exact absurd rfl q
  · constructor
    · rintro ⟨y, h1, h2⟩
      obtain rfl := get_inj h h1
      rw [get_modKid_ne (Ne.symm e), get_kids, he] at h2
      exact .inr ⟨e, h2⟩
    · rintro (⟨q, -⟩ | ⟨-, q⟩)
      · exact absurd q e
      · exact ⟨_, h, by rw [get_modKid_ne (Ne.symm e), get_kids, he]; exact q⟩

theorem readEntry_eq (h : Leads file tree name D) {coll : Str} (hc : GoodName coll) {e : Str × BNode F} (he : GoodName e.1)
    (hp : e.2.get (chars! "path") = .ok (.str (slash [name, coll, e.1]))) {out : BNode F} (ho : ¬ Listed out coll e.1) :
    (∀ c, Entry D coll e.1 c → readEntry file tree coll out e = .ok (setTwo coll e.1 c out)) ∧
    (¬ Listed D coll e.1 → readEntry file tree coll out e = .ok out) := by
  obtain ⟨h1, h2⟩ := h.at [coll, e.1] (by
    intro s hs
    simp only [List.mem_cons, List.not_mem_nil, or_false] at hs
    rcases hs with q | q
    · rw [q]; exact hc
    · rw [q]; exact he)
  have ho' : (out.getOrEmpty coll).getOrEmpty e.1 = .empty := by
    rcases get_cases out coll with ⟨y, hy⟩ | hy
    · rw [getOrEmpty_ok hy]
      rcases get_cases y e.1 with ⟨z, hz⟩ | hz
      · exact absurd ⟨z, y, hy, hz⟩ ho
      · exact getOrEmpty_error hz
    · rw [getOrEmpty_error hy]; rfl
  unfold readEntry
  rw [if_pos (has_iff.2 ⟨_, hp⟩), hp, Res.bind_ok]
  rw [show (BNode.str (slash [name, coll, e.1]) : BNode F).asString = .ok (slash [name, coll, e.1]) from rfl, Res.bind_ok]
  constructor
  · intro c hc
    rw [if_pos (h1.2 ⟨c, down_two.2 hc⟩), ho', h2 c (down_two.2 hc)]; rfl
  · intro hn
    rw [if_neg]
    intro q
    obtain ⟨x, hx⟩ := h1.1 q
    exact hn ⟨x, down_two.1 hx⟩

theorem readEntries (h : Leads file tree name D) {coll : Str} (hc : GoodName coll) (es : List (Str × BNode F))
    (hn : (es.map (·.1)).Nodup)
    (hp : ∀ e ∈ es, GoodName e.1 ∧ e.2.get (chars! "path") = .ok (.str (slash [name, coll, e.1]))) (out : BNode F)
    (ho : ∀ e ∈ es, ¬ Listed out coll e.1) :
    ∃ out', es.foldlM (readEntry file tree coll) out = .ok out' ∧ (∀ f, f ≠ coll → out'.get f = out.get f) ∧
      ∀ n c, Entry out' coll n c ↔ Entry out coll n c ∨ (n ∈ es.map (·.1) ∧ Entry D coll n c) := by
  induction es generalizing out with
  | nil => exact ⟨out, rfl, fun _ _ => rfl, fun n c => by simp⟩
  | cons e es ih =>
    rw [List.map_cons, List.nodup_cons] at hn
    obtain ⟨g, p⟩ := hp e List.mem_cons_self
    obtain ⟨r1, r2⟩ := readEntry_eq h hc g p (ho e List.mem_cons_self)
    have hp' := fun x hx => hp x (List.mem_cons_of_mem e hx)
    by_cases q : Listed D coll e.1
    · obtain ⟨c, hcD⟩ := q
      obtain ⟨out', e1, e2, e3⟩ := ih hn.2 hp' (setTwo coll e.1 c out) (fun x hx => by
        rintro ⟨y, hy⟩
        rcases entry_setTwo.1 hy with ⟨q, -⟩ | ⟨-, q⟩
        · exact hn.1 (q ▸ List.mem_map_of_mem hx)
        · exact ho x (List.mem_cons_of_mem _ hx) ⟨y, q⟩)
      refine ⟨out', ?_, fun f hf => by rw [e2 f hf, get_setTwo _ _ hf], fun n x => ?_⟩
      · rw [List.foldlM_cons, r1 c hcD]; exact e1
      · rw [e3, entry_setTwo, List.map_cons, List.mem_cons]
        constructor
        · rintro ((⟨rfl, rfl⟩ | ⟨-, q⟩) | ⟨q1, q2⟩)
          · exact .inr ⟨.inl rfl, hcD⟩
          · exact .inl q
          · exact .inr ⟨.inr q1, q2⟩
        · rintro (q | ⟨rfl | q1, q2⟩)
          · refine .inl (.inr ⟨?_, q⟩)
            rintro rfl
            exact ho e List.mem_cons_self ⟨x, q⟩
          · refine .inl (.inl ⟨rfl, ?_⟩)
            have := (down_two.2 q2).symm.trans (down_two.2 hcD)
            injection this
          · exact .inr ⟨q1, q2⟩
    · obtain ⟨out', e1, e2, e3⟩ := ih hn.2 hp' out (fun x hx => ho x (List.mem_cons_of_mem _ hx))
      refine ⟨out', ?_, e2, fun n x => ?_⟩
      · rw [List.foldlM_cons, r2 q]; exact e1
      · rw [e3, List.map_cons, List.mem_cons]
        constructor
        · rintro (q | ⟨q1, q2⟩)
          · exact .inl q
          · exact .inr ⟨.inr q1, q2⟩
        · rintro (q' | ⟨rfl | q1, q2⟩)
          · exact .inl q'
          · exact absurd ⟨x, q2⟩ q
          · exact .inr ⟨q1, q2⟩

/-- Entries without a path are not read. -/
theorem skipEntries {coll : Str} (es : List (Str × BNode F)) (h : ∀ e ∈ es, ¬ Has e.2 (chars! "path")) (out : BNode F) :
    es.foldlM (readEntry file tree coll) out = .ok out := by
  induction es with
  | nil => rfl
  | cons e es ih =>
    rw [List.foldlM_cons]
    have : readEntry file tree coll out e = .ok out := by
      unfold readEntry
      rw [if_neg (by rw [has_iff]; exact h e List.mem_cons_self)]
    rw [this]
    exact ih fun x hx => h x (List.mem_cons_of_mem _ hx)

/-- What has been read of the child `f` of the index `k`. -/
def Done (D : BNode F) (k : Str × BNode F) (out : BNode F) : Prop :=
  (k.1 = chars! "state" → out.get (chars! "state") = D.get (chars! "state")) ∧
  (k.1 ∈ collections → ∀ n c, Entry out k.1 n c ↔ Has k.2 n ∧ Entry D k.1 n c)

theorem entry_congr {a b : BNode F} {coll n : Str} {c : BNode F} (h : a.get coll = b.get coll) :
    Entry a coll n c ↔ Entry b coll n c := by unfold Entry; rw [h]

theorem readOuter_eq (h : Leads file tree name D) (hs : Has D (chars! "state")) {ks : List (Str × BNode F)} (hk : Guide name ks)
    {k : Str × BNode F} (hm : k ∈ ks) {out : BNode F} (ho : out.get k.1 = .error) :
    ∃ out', readOuter file tree out k = .ok out' ∧ Done D k out' ∧ ∀ f, f ≠ k.1 → out'.get f = out.get f := by
  unfold readOuter
  rcases hk.kid k hm with ⟨e, h1, h2⟩ | ⟨hc, es, e, h1, h2⟩
  · obtain ⟨s, hs⟩ := hs
    have hd : down D [chars! "state"] = .ok s := by simp only [down, hs]
    obtain ⟨q1, q2⟩ := h.at [chars! "state"] (by intro s hs; simp at hs; subst hs; exact good_state)
    have hr : readState file tree out k.2 = .ok (.obj (modKid (chars! "state") (fun _ => s) out.kids)) := by
      unfold readState
      rw [if_pos (has_iff.2 ⟨_, h1⟩), h1, Res.bind_ok,
        show (BNode.str (slash [name, chars! "state"]) : BNode F).asString = .ok (slash [name, chars! "state"]) from rfl, Res.bind_ok,
        getOrEmpty_error (e ▸ ho), q2 s hd]
      rfl
    rw [if_pos e, hr, Res.bind_ok, skipEntries _ h2]
    refine ⟨_, rfl, ⟨fun _ => ?_, fun q => ?_⟩, fun f hf => ?_⟩
    · rw [get_modKid_self, hs]
    · rw [e] at q; exact absurd q (by decide)
    · rw [e] at hf
      rw [get_modKid_ne (Ne.symm hf)]; rfl
  · have hne : k.1 ≠ chars! "state" := by
      rintro q
      rw [q] at hc
      exact absurd hc (by decide)
    rw [if_neg hne, Res.bind_ok, e]
    obtain ⟨out', r1, r2, r3⟩ := readEntries h (good_coll hc) es h1 h2 out (fun x _ => by
      rintro ⟨c, y, hy, -⟩; rw [ho] at hy; cases hy)
    refine ⟨out', r1, ⟨fun q => absurd q hne, fun _ n c => ?_⟩, r2⟩
    rw [r3, ← has_obj, ← e]
    constructor
    · rintro (⟨y, hy, -⟩ | q)
      · rw [ho] at hy; cases hy
      · exact q
    · exact .inr

theorem readOuters (h : Leads file tree name D) (hs : Has D (chars! "state")) {all : List (Str × BNode F)} (hk : Guide name all)
    (ks : List (Str × BNode F)) (hsub : ∀ k ∈ ks, k ∈ all) (hn : (ks.map (·.1)).Nodup) (out : BNode F)
    (ho : ∀ k ∈ ks, out.get k.1 = .error) :
    ∃ out', ks.foldlM (readOuter file tree) out = .ok out' ∧ (∀ k ∈ ks, Done D k out') ∧
      ∀ f, f ∉ ks.map (·.1) → out'.get f = out.get f := by
  induction ks generalizing out with
  | nil => exact ⟨out, rfl, by simp, fun _ _ => rfl⟩
  | cons k ks ih =>
    rw [List.map_cons, List.nodup_cons] at hn
    obtain ⟨o1, a1, a2, a3⟩ := readOuter_eq h hs hk (hsub k List.mem_cons_self) (ho k List.mem_cons_self)
    obtain ⟨o2, b1, b2, b3⟩ := ih (fun x hx => hsub x (List.mem_cons_of_mem _ hx)) hn.2 o1 (fun x hx => by
      rw [a3 x.1 (fun q => hn.1 (q ▸ List.mem_map_of_mem hx))]; exact ho x (List.mem_cons_of_mem _ hx))
    refine ⟨o2, by rw [List.foldlM_cons, a1]; exact b1, fun x hx => ?_, fun f hf => ?_⟩
    · rcases List.mem_cons.1 hx with rfl | hx
      · have e := b3 x.1 hn.1
        refine ⟨fun q => ?_, fun q n c => ?_⟩
        · rw [← a2.1 q, ← q, e]
        · rw [entry_congr e]; exact a2.2 q n c
      · exact b2 x hx
    · rw [List.map_cons, List.mem_cons, not_or] at hf
      rw [b3 f hf.2, a3 f hf.1]

/-- Reading a domain. -/
theorem readDomain_eq (h : Leads file tree name D) (hs : Has D (chars! "state")) {ks : List (Str × BNode F)} (hk : Guide name ks)
    (hi : chars! "state" ∈ ks.map (·.1)) :
    ∃ x, readDomain file tree (.obj ks) .empty = .ok x ∧ x.get (chars! "state") = D.get (chars! "state") ∧
      (∀ coll ∈ collections, ∀ n c, Entry x coll n c ↔ Listed (.obj ks : BNode F) coll n ∧ Entry D coll n c) ∧
      ∀ f, Has x f → f = chars! "state" ∨ f ∈ collections := by
  obtain ⟨x, h1, h2, h3⟩ := readOuters h hs hk ks (fun _ q => q) hk.nodup .empty (fun _ _ => rfl)
  refine ⟨x, h1, ?_, fun coll hc n c => ?_, fun f hf => ?_⟩
  · obtain ⟨k, hkm, e⟩ := List.mem_map.1 hi
    exact (h2 k hkm).1 e
  · by_cases q : coll ∈ ks.map (·.1)
    · obtain ⟨k, hkm, rfl⟩ := List.mem_map.1 q
      rw [(h2 k hkm).2 hc]
      have hg : (BNode.obj ks).get k.1 = .ok k.2 := get_mem hk.nodup hkm
      constructor
      · rintro ⟨⟨y, hy⟩, q2⟩; exact ⟨⟨y, k.2, hg, hy⟩, q2⟩
      · rintro ⟨⟨y, z, q1, q2⟩, q3⟩
        obtain rfl := get_inj hg q1
        exact ⟨⟨y, q2⟩, q3⟩
    · have e := h3 coll q
      constructor
      · rintro ⟨y, hy, -⟩; rw [e] at hy; cases hy
      · rintro ⟨⟨y, z, q1, -⟩, -⟩
        exact absurd ((has_obj).1 ⟨z, q1⟩) q
  · by_cases q : f ∈ ks.map (·.1)
    · obtain ⟨k, hkm, rfl⟩ := List.mem_map.1 q
      rcases hk.kid k hkm with ⟨e, -⟩ | ⟨hc, -⟩
      · exact .inl e
      · exact .inr hc
    · obtain ⟨y, hy⟩ := hf
      rw [h3 f q] at hy; cases hy

end
end Conduit.MeshIO
