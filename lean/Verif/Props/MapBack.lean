import Verif.Lemmas.MapBack6
/-
C97: fields of a partitioned mesh are brought back to the mesh it was made from.
-/
namespace Conduit.Back
open Conduit.Mesh Conduit.Part Conduit.Merge Conduit.Comb
variable {F : Type}

/-- **C97**: each original domain with an element in the partitioned mesh has the fields asked for; each element has the value of the element it
    became, each point that of the last domain with a point of its global number.  Other fields, everything that is not a field, and domains
    without elements there are as they were.  Proved for fields asked for once, if each element of such a domain is in exactly one place. -/
theorem C97_back (A : Arith F) (op : Opts) (gname : Str) (names : List Str) (assoc topo : Str → Str) (ps : List (Piece F))
    (ws : List (Whole F)) (hg : ∀ p ∈ ps, GoodPiece A op.elementName gname names assoc topo p)
    (hw : ∀ (k : Nat) w, ws[k]? = some w → GoodWhole A gname names assoc topo ps k w) (ho : OnceEach ps ws)
    (hal : PiecesAlike names assoc topo ps) (hnd : names.Nodup) (hne : names ≠ []) :
    ∃ outs, mapBack A op gname names (ps.map (·.mesh)) (ws.map (·.mesh)) = .ok outs ∧ outs.length = ws.length ∧
      ∀ (k : Nat) w out, ws[k]? = some w → outs[k]? = some out → BroughtBack names assoc topo ps w out :=
  mapBack_ok hg hw ho hal hnd hne

theorem last_at {g : Int} {l : List Int} (h : g ∈ l) : ∃ r : Nat, l[r]? = some g ∧ ∀ r', r < r' → l[r']? ≠ some g := by
  cases e : lastPlace g l 0 with
  | none => exact absurd h (lastPlace_none e)
  | some r =>
    obtain ⟨_, a, b⟩ := lastPlace_some e
    rw [Nat.sub_zero] at a b
    exact ⟨r, a, b⟩

theorem last_piece {ps : List (Piece F)} {P : Piece F → Prop} (h : ∃ p ∈ ps, P p) : ∃ A p B, ps = A ++ p :: B ∧ P p ∧ ∀ p' ∈ B, ¬ P p' := by
  classical
  induction ps with
  | nil => obtain ⟨p, hp, _⟩ := h; cases hp
  | cons a ps ih =>
    by_cases hq : ∃ p ∈ ps, P p
    · obtain ⟨A, p, B, e, h1, h2⟩ := ih hq
      exact ⟨a :: A, p, B, by rw [e]; rfl, h1, h2⟩
    · obtain ⟨p, hp, hpp⟩ := h
      rcases List.mem_cons.1 hp with rfl | hp
      · exact ⟨[], p, ps, rfl, hpp, fun p' hp' hh => hq ⟨p', hp', hh⟩⟩
      · exact absurd ⟨p, hp, hpp⟩ hq

/-- The pieces with elements of a domain agree on the points they share. -/
def Agree (ps : List (Piece F)) (d : Int) (name assoc topo : Str) : Prop :=
  ∀ p ∈ ps, ∀ p' ∈ ps, p.Holds d → p'.Holds d → ∀ u u', p.Has name assoc topo u → p'.Has name assoc topo u' →
    ∀ (r r' : Nat) g, p.gids[r]? = some g → p'.gids[r']? = some g → rowAt u r = rowAt u' r'

/-- **C97**: if the new domains agree on the points they share, a point has the value it has in any of them. -/
theorem C97_agree {names : List Str} {assoc topo : Str → Str} {ps : List (Piece F)} {w : Whole F} {name : Str} {v : BNode F}
    (hb : PointsBack ps w name (assoc name) (topo name) v) (hn : name ∈ names)
    (hhas : ∀ p ∈ ps, ∀ n ∈ names, ∃ u, p.Has n (assoc n) (topo n) u) (ha : Agree ps w.id name (assoc name) (topo name))
    {p : Piece F} (hp : p ∈ ps) (hh : p.Holds w.id) {u : BNode F} (hu : p.Has name (assoc name) (topo name) u) {q r : Nat} {g : Int}
    (hq : w.gids[q]? = some g) (hr : p.gids[r]? = some g) : rowAt v q = rowAt u r := by
  obtain ⟨A, p', B, e, ⟨h1, h2⟩, h3⟩ := last_piece (P := fun p => p.Holds w.id ∧ g ∈ p.gids) ⟨p, hp, hh, List.mem_of_getElem? hr⟩
  have hp' : p' ∈ ps := by rw [e]; simp
  obtain ⟨u', hu'⟩ := hhas p' hp' name hn
  obtain ⟨r', a, b⟩ := last_at h2
  rw [(hb q g hq).1 A p' B e h1 (fun x hx hxh hxg => h3 x hx ⟨hxh, hxg⟩) r' a b u' hu']
  exact ha p' hp' p hp h1 hh u' u hu' hu r' r g a hr

/-- The values of the pieces are still those of the original domain. -/
def Unchanged (ps : List (Piece F)) (w : Whole F) (name assoc topo : Str) (old : BNode F) : Prop :=
  ∀ p ∈ ps, p.Holds w.id → ∀ u, p.Has name assoc topo u →
    (assoc = chars! "element" → ∀ (j e : Nat), p.orig[j]? = some (w.id, e) → rowAt u j = rowAt old e) ∧
    (assoc = chars! "vertex" → ∀ (q r : Nat) g, w.gids[q]? = some g → p.gids[r]? = some g → rowAt u r = rowAt old q)

/-- **C97**: fields that were partitioned and not changed come back as they were. -/
theorem C97_round (A : Arith F) (op : Opts) (gname : Str) (names : List Str) (assoc topo : Str → Str) (ps : List (Piece F))
    (ws : List (Whole F)) (hg : ∀ p ∈ ps, GoodPiece A op.elementName gname names assoc topo p)
    (hw : ∀ (k : Nat) w, ws[k]? = some w → GoodWhole A gname names assoc topo ps k w) (ho : OnceEach ps ws)
    (hal : PiecesAlike names assoc topo ps) (hnd : names.Nodup) (hne : names ≠ []) :
    ∃ outs, mapBack A op gname names (ps.map (·.mesh)) (ws.map (·.mesh)) = .ok outs ∧
      ∀ (k : Nat) w out, ws[k]? = some w → outs[k]? = some out → ∀ name ∈ names, ∀ f old, w.fields.get name = .ok f →
        FieldOf f (assoc name) (topo name) old → Unchanged ps w name (assoc name) (topo name) old →
        ∃ f' v, (out.getOrEmpty (chars! "fields")).get name = .ok f' ∧ FieldOf f' (assoc name) (topo name) v ∧
          ∀ q, q < w.count (assoc name) → rowAt v q = rowAt old q := by
  obtain ⟨outs, h1, h2, h3⟩ := mapBack_ok hg hw ho hal hnd hne
  refine ⟨outs, h1, fun k w out hk hout name hn f old hf hfo hun => ?_⟩
  have hb := h3 k w out hk hout
  by_cases hh : ∃ p ∈ ps, p.Holds w.id
  · obtain ⟨fs, f', v, g1, g2, g3, _, g5, g6⟩ := hb.fields hh name hn
    refine ⟨f', v, by rw [getOrEmpty_ok g1]; exact g2, g3, fun q hq => ?_⟩
    obtain ⟨p0, hp0, hh0⟩ := hh
    rcases ((hg p0 hp0).has name hn).1 with hv | he
    · rw [Whole.count, if_neg (by rw [hv]; decide)] at hq
      have hqg := List.getElem?_eq_getElem hq
      by_cases hx : ∃ p ∈ ps, p.Holds w.id ∧ w.gids[q] ∈ p.gids
      · obtain ⟨A', p', B, e, ⟨a1, a2⟩, a3⟩ := last_piece hx
        have hp' : p' ∈ ps := by rw [e]; simp
        obtain ⟨u', hu', _⟩ := ((hg p' hp').has name hn).2
        obtain ⟨r', a, b⟩ := last_at a2
        rw [(g6 hv q _ hqg).1 A' p' B e a1 (fun x hx hxh hxg => a3 x hx ⟨hxh, hxg⟩) r' a b u' hu']
        exact (hun p' hp' a1 u' hu').2 hv q r' _ hqg a
      · exact (g6 hv q _ hqg).2 (fun p hp hh' hm => hx ⟨p, hp, hh', hm⟩) f old hf hfo.values
    · rw [Whole.count, if_pos he] at hq
      have hwm := List.mem_of_getElem? hk
      have hperm := ho.once w hwm ⟨p0, hp0, hh0⟩
      have hm : q ∈ numbersOf ps w.id := hperm.mem_iff.2 (by simpa using hq)
      obtain ⟨x, x1, x2⟩ := List.mem_map.1 hm
      obtain ⟨x3, x4⟩ := List.mem_filter.1 x1
      obtain ⟨p, hp, hx⟩ := List.mem_flatMap.1 x3
      obtain ⟨j, hj⟩ := List.getElem?_of_mem hx
      have hxd : x = (w.id, q) := by
        have : x.1 = w.id := by simpa using x4
        rw [← x2, ← this]
      rw [hxd] at hj hx
      obtain ⟨u, hu, _⟩ := ((hg p hp).has name hn).2
      rw [g5 he p hp u hu j q hj]
      exact (hun p hp ⟨_, hx, rfl⟩ u hu).1 he j q hj
  · have := hb.untouched fun p hp hp' => hh ⟨p, hp, hp'⟩
    subst this
    exact ⟨f, old, hf, hfo, fun _ _ => rfl⟩

end Conduit.Back
