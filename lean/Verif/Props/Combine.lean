import Verif.Lemmas.Combine5
/-
C96: chunks of meshes are put together.
-/
namespace Conduit.Comb
open Conduit.Mesh Conduit.Part Conduit.Merge
variable {F : Type}

theorem kind_fixed (A : Arith F) (cs : List (Chunk F)) (ht : ∀ c ∈ cs, c.topo.get (chars! "type") = .ok (.str (chars! "unstructured")))
    (hf : ∀ c ∈ cs, Fixed c.topo c.shape c.els) (d : Int) : kindOf false d (cs.map (·.topo)) = .ok .fixed := by
  induction cs generalizing d with
  | nil => rfl
  | cons c cs ih =>
    obtain ⟨sh, s1, s2, s3, _⟩ := iter_fixed A (hf c (by simp)) (ht c (by simp))
    obtain ⟨e, n, tc, f1, f2, _⟩ := hf c (by simp)
    rw [List.map_cons, kindOf, getOrEmpty_ok f1]
    simp only [f2, Res.bind_ok, BNode.asString, s1, s2, s3]
    rw [if_neg (by simp)]
    exact ih (fun x hx => ht x (by simp [hx])) (fun x hx => hf x (by simp [hx])) _

theorem kind_polygons (cs : List (Chunk F)) (hf : ∀ c ∈ cs, (Fixed c.topo c.shape c.els ∧ c.shape ∈ flatShapes) ∨ Packed c.topo c.els)
    (pg : Bool) (d : Int) (hd : d ≤ 2) (hp : pg = true ∨ ∃ c ∈ cs, Packed c.topo c.els) : kindOf pg d (cs.map (·.topo)) = .ok .polygons := by
  induction cs generalizing pg d with
  | nil =>
    rcases hp with rfl | ⟨c, hc, _⟩
    · rw [List.map_nil, kindOf, if_neg (by omega), if_pos rfl]
    · cases hc
  | cons c cs ih =>
    rcases hf c (by simp) with ⟨hfx, hs⟩ | hpk
    · obtain ⟨e, n, tc, f1, f2, f3, _⟩ := hfx
      obtain ⟨sh, s1, s2, s3, s4, s5⟩ := shape_fixed f3
      obtain ⟨sh', t1, t2⟩ := flat_dim hs
      rw [s1] at t1; cases t1
      rw [List.map_cons, kindOf, getOrEmpty_ok f1]
      simp only [f2, Res.bind_ok, BNode.asString, s1, s2, s3]
      rw [if_neg (by simp)]
      refine ih (fun x hx => hf x (by simp [hx])) _ _ (by omega) ?_
      rcases hp with rfl | ⟨c', hc', hpk⟩
      · exact .inl rfl
      · rcases List.mem_cons.1 hc' with rfl | hc'
        · obtain ⟨e', _, _, g1, g2, _⟩ := hpk
          rw [f1] at g1; cases g1
          rw [f2] at g2
          injection g2 with g2
          injection g2 with g2
          rw [g2] at hs
          exact absurd hs (by decide)
        · exact .inr ⟨c', hc', hpk⟩
    · obtain ⟨e, tc, ts, g1, g2, _⟩ := hpk
      rw [List.map_cons, kindOf, getOrEmpty_ok g1]
      simp only [g2, Res.bind_ok, BNode.asString, show shapeInit (chars! "polygonal") = .ok ⟨2, -1, false⟩ from rfl]
      rw [if_neg (by decide)]
      exact ih (fun x hx => hf x (by simp [hx])) _ _ (by omega) (.inl (by cases pg <;> rfl))

/-- The number of a chunk's domain can be read. -/
def Numbered (A : Arith F) (cs : List (Chunk F)) : Prop :=
  ∀ c ∈ cs, ∀ st n, c.mesh.get (chars! "state") = .ok st → st.get (chars! "domain_id") = .ok n → ∃ d, n.toInt64 A = .ok d

theorem builds_fixed {o : MOps F} {tname csname : Str} {cs : List (Chunk F)} (h2 : 2 ≤ cs.length) (hg : ∀ c ∈ cs, Good o tname csname c)
    (hs : ∀ c ∈ cs, Fixed c.topo c.shape c.els) : Builds o.arith cs csname false := by
  refine ⟨kind_fixed o.arith cs (fun c hc => (hg c hc).type) hs 0, fun maps hm => ?_⟩
  exact buildUnstructured_ok o.arith cs maps csname hm (by rintro rfl; simp at h2) (fun c hc => (hg c hc).type) hs
    (fun c hc => ⟨(hg c hc).elements.1, fun el hel => ((hg c hc).elements.2 el hel).2⟩)

theorem builds_polygons {o : MOps F} {tname csname : Str} {cs : List (Chunk F)} (hg : ∀ c ∈ cs, Good o tname csname c)
    (hs : ∀ c ∈ cs, (Fixed c.topo c.shape c.els ∧ c.shape ∈ [chars! "line", chars! "tri", chars! "quad"]) ∨ Packed c.topo c.els)
    (hp : ∃ c ∈ cs, Packed c.topo c.els) : Builds o.arith cs csname true := by
  refine ⟨kind_polygons cs hs false 0 (by omega) (.inr hp), fun maps hm => ?_⟩
  exact buildPolygonal_ok o.arith cs maps csname hm (fun c hc => (hg c hc).type) hs (fun c hc el hel => ((hg c hc).elements.2 el hel).2)

theorem unites {o : MOps F} {tol : F} {tname csname : Str} {cs : List (Chunk F)} (h2 : 2 ≤ cs.length) (hg : ∀ c ∈ cs, Good o tname csname c) :
    Unites o tol cs fun _ => True := by
  obtain ⟨a, b, c, h1, h3⟩ := C95_merge o tol (inOf cs) (by simpa [inOf] using h2) (by
    intro x hx
    obtain ⟨c, hc, rfl⟩ := List.mem_map.1 hx
    exact (hg c hc).points)
  exact ⟨a, b, c, h1, h3, trivial⟩

theorem unites_shared {o : MOps F} {tol : F} {tname csname : Str} {cs : List (Chunk F)} (ho : Ordered o) (ht : Tolerance o tol)
    (hsep : Separated o tol (inOf cs)) (h2 : 2 ≤ cs.length) (hg : ∀ c ∈ cs, Good o tname csname c) : Unites o tol cs (United o cs) :=
  C95_shared o tol ho ht (inOf cs) (by simpa [inOf] using h2) (by
    intro x hx
    obtain ⟨c, hc, rfl⟩ := List.mem_map.1 hx
    exact (hg c hc).points) hsep

/-- **C96**: two or more unstructured chunks with elements of shapes with a fixed number of points, on explicit cartesian coordsets, are put
    together: every element of every chunk is there once, with its shape and its corners in their order; a field that all of them
    have is there, with the value of each element and, for each point, that of the last chunk with it.  If there is no field that says where
    the elements and points came from, one is made. -/
theorem C96_fixed (o : MOps F) (tol : F) (op : Opts) (implicit : Str → Str → List (BNode F) → Res (Option (BNode F × BNode F))) (domain : Int)
    (tname csname : Str) (cs : List (Chunk F)) (h2 : 2 ≤ cs.length) (hg : ∀ c ∈ cs, Good o tname csname c) (hf : FieldsAlike cs)
    (hd : Numbered o.arith cs) (hs : ∀ c ∈ cs, Fixed c.topo c.shape c.els) :
    ∃ out, combine o tol op implicit domain (cs.map (·.mesh)) = .ok out ∧
      Combined o tol op tname csname domain false (fun _ => True) cs out :=
  combine_ok h2 hg hf hd (builds_fixed h2 hg hs) (unites h2 hg)

/-- **C96**: the same if chunks have polygons whose points come one after the other; the others have lines, triangles or quadrilaterals.  All
    become polygons. -/
theorem C96_polygons (o : MOps F) (tol : F) (op : Opts) (implicit : Str → Str → List (BNode F) → Res (Option (BNode F × BNode F))) (domain : Int)
    (tname csname : Str) (cs : List (Chunk F)) (h2 : 2 ≤ cs.length) (hg : ∀ c ∈ cs, Good o tname csname c) (hf : FieldsAlike cs)
    (hd : Numbered o.arith cs)
    (hs : ∀ c ∈ cs, (Fixed c.topo c.shape c.els ∧ c.shape ∈ [chars! "line", chars! "tri", chars! "quad"]) ∨ Packed c.topo c.els)
    (hp : ∃ c ∈ cs, Packed c.topo c.els) :
    ∃ out, combine o tol op implicit domain (cs.map (·.mesh)) = .ok out ∧
      Combined o tol op tname csname domain true (fun _ => True) cs out :=
  combine_ok h2 hg hf hd (builds_polygons hg hs hp) (unites h2 hg)

/-- **C96**: if points that are near have the same coordinates, points of different chunks become one exactly if they have the same
    coordinates: elements that met still meet. -/
theorem C96_shared (o : MOps F) (tol : F) (op : Opts) (implicit : Str → Str → List (BNode F) → Res (Option (BNode F × BNode F))) (domain : Int)
    (tname csname : Str) (cs : List (Chunk F)) (ho : Ordered o) (ht : Tolerance o tol) (hsep : Separated o tol (inOf cs)) (h2 : 2 ≤ cs.length)
    (hg : ∀ c ∈ cs, Good o tname csname c) (hf : FieldsAlike cs) (hd : Numbered o.arith cs) (poly : Bool)
    (hs : (poly = false ∧ ∀ c ∈ cs, Fixed c.topo c.shape c.els) ∨
      (poly = true ∧ (∃ c ∈ cs, Packed c.topo c.els) ∧
        ∀ c ∈ cs, (Fixed c.topo c.shape c.els ∧ c.shape ∈ [chars! "line", chars! "tri", chars! "quad"]) ∨ Packed c.topo c.els)) :
    ∃ out, combine o tol op implicit domain (cs.map (·.mesh)) = .ok out ∧ Combined o tol op tname csname domain poly (United o cs) cs out := by
  refine combine_ok h2 hg hf hd ?_ (unites_shared ho ht hsep h2 hg)
  rcases hs with ⟨rfl, hs⟩ | ⟨rfl, hp, hs⟩
  · exact builds_fixed h2 hg hs
  · exact builds_polygons hg hs hp

/-- **C96**: one chunk is left as it is, but for the number of its domain. -/
theorem C96_single (o : MOps F) (tol : F) (op : Opts) (implicit : Str → Str → List (BNode F) → Res (Option (BNode F × BNode F))) (domain : Int)
    (m : BNode F) :
    ∃ out st, combine o tol op implicit domain [m] = .ok out ∧ (∀ k, k ≠ chars! "state" → out.get k = m.get k) ∧
      out.get (chars! "state") = .ok st ∧ st.get (chars! "domain_id") = .ok (.ints int32 [domain]) ∧
      ∀ st0 k, m.get (chars! "state") = .ok st0 → k ≠ chars! "domain_id" → st.get k = st0.get k :=
  ⟨_, _, rfl, fun _ hk => get_setChild_other _ _ _ _ hk, get_setChild_same _ _ _, get_setChild_same _ _ _, fun st0 k hst hk => by
    rw [combinedState, getOrEmpty_ok hst]; exact get_setChild_other _ _ _ _ hk⟩

end Conduit.Comb
