import Verif.Lemmas.MeshIO3
/-
The index that is written guides the reading (C88).
-/
namespace Conduit.MeshIO
open Conduit.Mesh

section
variable {F : Type}

theorem update_leaf {x d : BNode F} (hx : x.kids = []) (hd : d.kids = []) : (x.update d).kids = [] := by
  cases x with
  | obj ks =>
    have : ks = [] := hx
    subst this; rw [BNode.update]; exact hd
  | list ks =>
    by_cases h : ks = []
    · subst h; rw [BNode.update]; exact hd
    · cases d with
      | list ds => rw [BNode.update]; · rfl
                   · exact h
      | _ => rw [BNode.update] <;> first | rfl | exact h | simp
  | empty => rw [BNode.update]; exact hd
  | ints t l => obtain ⟨l', e⟩ := update_ints t l d; rw [e]; rfl
  | flts w l =>
    cases d with
    | flts t' l' => rw [BNode.update]; split <;> rfl
    | _ => simp [BNode.update]; rfl
  | str s => rw [update_str]; rfl

/-- The children of an index of domains with a state, and the state. -/
structure Shape (ref : Str) (n : BNode F) : Prop where
  names : ∀ f, Has n f → f ∈ chars! "state" :: collections
  state : ∃ s, n.get (chars! "state") = .ok (.obj s) ∧
    (BNode.obj s).get (chars! "path") = .ok (.str (joinPath ref (chars! "state"))) ∧
    ∀ k ∈ s, k.1 ∈ [chars! "cycle", chars! "time", chars! "path"] ∧ k.2.kids = []

theorem objKid_name {f : Str} {ks : List (Str × BNode F)} {k : Str × BNode F} (h : k ∈ objKid f ks) : k.1 = f := by
  unfold objKid at h
  split at h
  · cases h
  · rw [List.mem_singleton] at h; rw [h]

theorem collection_name {n : BNode F} {coll : Str} {f : Str → BNode F → Res (BNode F)} {l : List (Str × BNode F)}
    (h : indexCollection n coll f = .ok l) : ∀ k ∈ l, k.1 = coll := by
  unfold indexCollection at h
  split at h
  · obtain ⟨c, -, h⟩ := Res.bind_eq_ok.1 h
    obtain ⟨es, -, h⟩ := Res.bind_eq_ok.1 h
    injection h with h
    subst h
    exact fun k hk => objKid_name hk
  · injection h with h
    subst h
    simp

theorem number_kids {c : BNode F} (h : Number c) : c.kids = [] := by
  rcases h with ⟨t, v, l, rfl⟩ | ⟨t, v, l, rfl⟩ <;> rfl

theorem state_shape {n : BNode F} {ref : Str} (hs : Has n (chars! "state"))
    (hn : ∀ f ∈ [chars! "cycle", chars! "time", chars! "domain_id"], ∀ x, Entry n (chars! "state") f x → Number x) :
    ∃ s, indexState n ref = .ok [(chars! "state", .obj s)] ∧
      (BNode.obj s).get (chars! "path") = .ok (.str (joinPath ref (chars! "state"))) ∧
      ∀ k ∈ s, k.1 ∈ [chars! "cycle", chars! "time", chars! "path"] ∧ k.2.kids = [] := by
  obtain ⟨x, hx⟩ := hs
  unfold indexState
  rw [if_pos (has_iff.2 ⟨x, hx⟩), hx, Res.bind_ok]
  refine ⟨_, rfl, ?_, ?_⟩
  · dsimp only
    rcases get_cases x (chars! "cycle") with ⟨c, hc⟩ | hc <;> rcases get_cases x (chars! "time") with ⟨t, ht⟩ | ht <;>
      rw [hc, ht] <;> rfl
  · have h1 := fun c (h : x.get (chars! "cycle") = .ok c) => number_kids (hn _ (by simp) c ⟨x, hx, h⟩)
    have h2 := fun c (h : x.get (chars! "time") = .ok c) => number_kids (hn _ (by simp) c ⟨x, hx, h⟩)
    dsimp only
    intro k hk
    simp only [List.mem_append, List.mem_singleton] at hk
    rcases hk with (hk | hk) | rfl
    · split at hk
      · rename_i c hc
        rw [List.mem_singleton] at hk
        subst hk
        exact ⟨by simp, h1 _ hc⟩
      · cases hk
    · split at hk
      · rename_i c hc
        rw [List.mem_singleton] at hk
        subst hk
        exact ⟨by simp, h2 _ hc⟩
      · cases hk
    · exact ⟨by simp, rfl⟩

theorem single_shape {n i : BNode F} {ref : Str} (hs : Has n (chars! "state"))
    (hn : ∀ f ∈ [chars! "cycle", chars! "time", chars! "domain_id"], ∀ x, Entry n (chars! "state") f x → Number x)
    (h : indexSingle n ref = .ok i) : Shape ref i := by
  obtain ⟨s, e0, h1, h2⟩ := state_shape (ref := ref) hs hn
  unfold indexSingle at h
  split at h
  · cases h
  · rw [e0, Res.bind_ok] at h
    obtain ⟨l1, e1, h⟩ := Res.bind_eq_ok.1 h
    obtain ⟨l2, e2, h⟩ := Res.bind_eq_ok.1 h
    obtain ⟨l3, e3, h⟩ := Res.bind_eq_ok.1 h
    obtain ⟨l4, e4, h⟩ := Res.bind_eq_ok.1 h
    obtain ⟨l5, e5, h⟩ := Res.bind_eq_ok.1 h
    obtain ⟨l6, e6, h⟩ := Res.bind_eq_ok.1 h
    obtain ⟨l7, e7, h⟩ := Res.bind_eq_ok.1 h
    injection h with h
    subst h
    refine ⟨fun f hf => ?_, s, get_cons_self .., h1, h2⟩
    rw [has_obj] at hf
    obtain ⟨k, hk, rfl⟩ := List.mem_map.1 hf
    simp only [List.mem_append, List.mem_singleton] at hk
    rcases hk with ((((((rfl | hk) | hk) | hk) | hk) | hk) | hk) | hk
    · exact List.mem_cons_self
    · rw [collection_name e1 k hk]; decide
    · rw [collection_name e2 k hk]; decide
    · rw [collection_name e3 k hk]; decide
    · rw [collection_name e4 k hk]; decide
    · rw [collection_name e5 k hk]; decide
    · rw [collection_name e6 k hk]; decide
    · rw [collection_name e7 k hk]; decide

theorem Shape.plain_update {ref : Str} {i a : BNode F} (hi : Shape ref i) (hp : Plain i) (ha : a = .empty ∨ Shape ref a) :
    Shape ref (i.update a) := by
  obtain ⟨s, s1, s2, s3⟩ := hi.state
  have hsane := Sane.of s1 hp
  have hps := hp.get s1
  have hss := Sane.of s2 hps
  constructor
  · intro f hf
    rcases hsane.has.1 hf with q | q
    · exact hi.names f q
    · rcases ha with rfl | ha
      · exact absurd q (not_has_empty f)
      · exact ha.names f q
  · rw [hsane.get_update s1]
    have hne : s ≠ [] := by rintro rfl; rw [get_nil] at s2; cases s2
    refine ⟨_, by rw [update_obj hne], ?_, ?_⟩
    · have := hss.str (d := a.getOrEmpty (chars! "state")) s2
      rw [update_obj hne] at this
      exact this
    · refine updO_closed (P := fun f x => f ∈ [chars! "cycle", chars! "time", chars! "path"] ∧ x.kids = []) s _ ?_ fun k hk d hd =>
        ⟨(s3 k hk).1, update_leaf (s3 k hk).2 ?_⟩
      · rcases ha with rfl | ha
        · intro k hk; cases hk
        · obtain ⟨t, t1, -, t3⟩ := ha.state
          rw [getOrEmpty_ok t1]; exact t3
      · rcases hd with rfl | hd
        · rfl
        · exact hd.2

theorem domains_shape {ref : Str} (l : List (Str × BNode F)) (a i : BNode F) (hp : Plain a)
    (hl : ∀ k ∈ l, Plain k.2 ∧ IsDomain k.2 ∧ Indexable k.2 ∧ Has k.2 (chars! "state") ∧
      ∀ f ∈ [chars! "cycle", chars! "time", chars! "domain_id"], ∀ x, Entry k.2 (chars! "state") f x → Number x)
    (ha : (a = .empty ∧ l ≠ []) ∨ Shape ref a) (h : indexDomains ref l a = .ok i) : Shape ref i := by
  induction l generalizing a with
  | nil =>
    injection h with h
    subst h
    rcases ha with ⟨-, h⟩ | h
    · exact absurd rfl h
    · exact h
  | cons k l ih =>
    obtain ⟨h1, h2, h3, h4, h5⟩ := hl k List.mem_cons_self
    obtain ⟨ks, e1, e2, -⟩ := single_made ref h1 h2 h3
    rw [indexDomains, e1, Res.bind_ok] at h
    exact ih _ (plain_update _ _ e2 hp) (fun x hx => hl x (List.mem_cons_of_mem _ hx))
      (.inr ((single_shape h4 h5 e1).plain_update e2 (ha.imp (·.1) id))) h

end
end Conduit.MeshIO
