import Verif.Props.MapBack
import Verif.Props.CombineEx
/-
C97: cases.
-/
namespace Conduit.Back.Case
open Conduit.Mesh Conduit.Part Conduit.Merge Conduit.Merge.Case Conduit.Comb Conduit.Comb.Case Conduit.Back

def gname : Str := chars! "global_vertex_ids"
def names : List Str := [chars! "e", chars! "v"]
def assoc (n : Str) : Str := if n = chars! "v" then chars! "vertex" else chars! "element"
def topo (_ : Str) : Str := chars! "t"

def coords (n : Nat) : BNode Int := .obj [(chars! "type", .str (chars! "explicit")), (chars! "values", .obj [(chars! "x", .flts true (List.replicate n 0)),
  (chars! "y", .flts true (List.replicate n 0))])]

/-- Where the elements came from. -/
def origin (l : List (Int × Nat)) : BNode Int :=
  field (chars! "element") (chars! "t") (.obj [(chars! "domains", .ints int32 (l.map (·.1))), (chars! "ids", .ints int32 (l.map fun x => (x.2 : Int)))])

def ab (a b : List Int) : BNode Int := .obj [(chars! "a", .flts true a), (chars! "b", .ints int64 b)]

def pieceFs (l : List (Int × Nat)) (gids e a b : List Int) : List (Str × BNode Int) :=
  [(chars! "e", field (chars! "element") (chars! "t") (.ints int32 e)), (chars! "v", field (chars! "vertex") (chars! "t") (ab a b)),
    (gname, field (chars! "vertex") (chars! "t") (.ints int32 gids)), (chars! "original_element_ids", origin l)]

def piece (l : List (Int × Nat)) (gids e a b : List Int) : Piece Int :=
  ⟨.obj [(chars! "fields", .obj (pieceFs l gids e a b))], .obj (pieceFs l gids e a b), l, gids⟩

def whole (d : Int) (n : Nat) (gids : List Int) (fs : List (Str × BNode Int)) : Whole Int :=
  ⟨mesh d (coords gids.length) (topology (elems (chars! "line") [])) ((gname, field (chars! "vertex") (chars! "t") (.ints int64 gids)) :: fs), d, n, gids⟩

/-- Two new domains with the elements of domains 3 and 7; those of domain 9 were left out. -/
def pa : Piece Int := piece [(3, 1), (7, 0)] [100, 101, 104] [31, 70] [1, 2, 3] [4, 5, 6]
def pb : Piece Int := piece [(3, 2), (3, 0)] [102, 101, 103] [32, 30] [11, 12, 13] [14, 15, 16]

def w3 : Whole Int := whole 3 3 [100, 101, 102, 103] [(chars! "e", field (chars! "vertex") (chars! "u") (.ints int32 [1, 2, 3]))]
def w9 : Whole Int := whole 9 5 [7] [(chars! "k", .str (chars! "x"))]
def w7 : Whole Int := whole 7 1 [103, 104] [(chars! "v", field (chars! "vertex") (chars! "t") (ab [8, 9] [10, 11]))]

theorem good_piece (l : List (Int × Nat)) (gids e a b : List Int) (h1 : e.length = l.length) (h2 : a.length = gids.length)
    (h3 : b.length = gids.length) (h4 : (gids.map int64.cast) = gids) (h5 : (l.map fun x => int64.cast x.1) = l.map (·.1))
    (h6 : (l.map fun x => int64.cast (x.2 : Int)) = l.map fun x => (x.2 : Int)) :
    GoodPiece o.arith op.elementName gname names assoc topo (piece l gids e a b) where
  fields := rfl
  nodup := by show ([chars! "e", chars! "v", gname, chars! "original_element_ids"] : List Str).Nodup; decide
  origin := ⟨_, _, _, _, rfl, rfl, rfl, rfl, by rw [asIndices, List.map_map]; exact congrArg Res.ok h6,
    by rw [asIndices, List.map_map]; exact congrArg Res.ok h5⟩
  has := by
    intro name hn
    rcases List.mem_cons.1 hn with rfl | hn
    · exact ⟨.inr rfl, .ints int32 e, ⟨_, rfl, rfl, rfl, rfl⟩, .inl (.inl ⟨_, _, rfl, le_of_eq h1.symm⟩)⟩
    · rcases List.mem_cons.1 hn with rfl | hn
      · refine ⟨.inl rfl, ab a b, ⟨_, rfl, rfl, rfl, rfl⟩, .inr ⟨_, _, rfl, fun c hc => ?_⟩⟩
        rcases List.mem_cons.1 hc with rfl | hc
        · exact .inr ⟨_, _, rfl, le_of_eq h2.symm⟩
        · rcases List.mem_cons.1 hc with rfl | hc
          · exact .inl ⟨_, _, rfl, le_of_eq h3.symm⟩
          · cases hc
      · cases hn
  points := fun _ => ⟨_, _, rfl, rfl, congrArg Res.ok h4⟩

theorem good_pa : GoodPiece o.arith op.elementName gname names assoc topo pa := good_piece _ _ _ _ _ rfl rfl rfl (by decide) (by decide) (by decide)
theorem good_pb : GoodPiece o.arith op.elementName gname names assoc topo pb := good_piece _ _ _ _ _ rfl rfl rfl (by decide) (by decide) (by decide)

theorem has_e {l : List (Int × Nat)} {gids e a b : List Int} {v : BNode Int} (h : (piece l gids e a b).Has (chars! "e") (assoc (chars! "e")) (topo (chars! "e")) v) :
    v = .ints int32 e := has_unique h ⟨_, rfl, rfl, rfl, rfl⟩

theorem has_v {l : List (Int × Nat)} {gids e a b : List Int} {v : BNode Int} (h : (piece l gids e a b).Has (chars! "v") (assoc (chars! "v")) (topo (chars! "v")) v) :
    v = ab a b := has_unique h ⟨_, rfl, rfl, rfl, rfl⟩

theorem alike_ab (a b a' b' : List Int) : Alike (ab a b) (ab a' b') := alike_v a b a' b'

theorem alike_pieces : PiecesAlike names assoc topo [pa, pb] := by
  have key : ∀ {l l' : List (Int × Nat)} {g g' e e' a a' b b' : List Int}, ∀ name ∈ names, ∀ v w,
      (piece l g e a b).Has name (assoc name) (topo name) v → (piece l' g' e' a' b').Has name (assoc name) (topo name) w → Alike v w := by
    intro l l' g g' e e' a a' b b' name hn v w h1 h2
    rcases List.mem_cons.1 hn with rfl | hn
    · rw [has_e h1, has_e h2]; exact alike_e _ _
    · rcases List.mem_cons.1 hn with rfl | hn
      · rw [has_v h1, has_v h2]; exact alike_ab _ _ _ _
      · cases hn
  intro name hn p hp q hq v w h1 h2
  rcases List.mem_cons.1 hp with rfl | hp <;> rcases List.mem_cons.1 hq with rfl | hq
  · exact key name hn v w h1 h2
  · cases List.mem_singleton.1 hq; exact key name hn v w h1 h2
  · cases List.mem_singleton.1 hp; exact key name hn v w h1 h2
  · cases List.mem_singleton.1 hp; cases List.mem_singleton.1 hq; exact key name hn v w h1 h2

theorem good_whole (k : Nat) (d : Int) (n : Nat) (gids : List Int) (fs : List (Str × BNode Int)) (hd : int64.cast d = d) (h4 : (gids.map int64.cast) = gids)
    (hne : gids ≠ []) (hc : coordsetLength o.arith (coords gids.length) = .ok (gids.length : Int))
    (he : ∀ f old, (whole d n gids fs).fields.get (chars! "e") = .ok f → f.get (chars! "values") = .ok old → ∃ l, old = .ints int32 l ∧ l.length = n)
    (hv : ∀ f old, (whole d n gids fs).fields.get (chars! "v") = .ok f → f.get (chars! "values") = .ok old →
      ∃ a b, old = ab a b ∧ a.length = gids.length ∧ b.length = gids.length) :
    GoodWhole o.arith gname names assoc topo [pa, pb] k (whole d n gids fs) where
  id := .inl ⟨_, _, _, _, rfl, rfl, hd⟩
  points := fun _ => ⟨_, rfl, _, _, rfl, rfl, congrArg Res.ok h4⟩
  coords := fun name _ _ => ⟨hne, _, _, _, _, _, rfl, rfl, rfl, rfl, rfl, hc⟩
  old := by
    intro name hn f old h1 h2
    rcases List.mem_cons.1 hn with rfl | hn
    · obtain ⟨l, rfl, hl⟩ := he f old h1 h2
      refine ⟨.inl (.inl ⟨_, _, rfl, hl⟩), fun p hp v hh => ?_⟩
      rcases List.mem_cons.1 hp with rfl | hp
      · rw [has_e hh]; exact alike_e _ _
      · cases List.mem_singleton.1 hp; rw [has_e hh]; exact alike_e _ _
    · rcases List.mem_cons.1 hn with rfl | hn
      · obtain ⟨a, b, rfl, ha, hb⟩ := hv f old h1 h2
        refine ⟨.inr ⟨_, _, rfl, fun c hc => ?_⟩, fun p hp v hh => ?_⟩
        · rcases List.mem_cons.1 hc with rfl | hc
          · exact .inr ⟨_, _, rfl, ha⟩
          · rcases List.mem_cons.1 hc with rfl | hc
            · exact .inl ⟨_, _, rfl, hb⟩
            · cases hc
        · rcases List.mem_cons.1 hp with rfl | hp
          · rw [has_v hh]; exact alike_ab _ _ _ _
          · cases List.mem_singleton.1 hp; rw [has_v hh]; exact alike_ab _ _ _ _
      · cases hn

theorem good_w3 : GoodWhole o.arith gname names assoc topo [pa, pb] 0 w3 :=
  good_whole _ _ _ _ _ (by decide) (by decide) (by decide) rfl
    (fun f old h1 h2 => by cases h1; cases h2; exact ⟨_, rfl, rfl⟩) (fun f old h1 _ => by cases h1)
theorem good_w9 : GoodWhole o.arith gname names assoc topo [pa, pb] 1 w9 :=
  good_whole _ _ _ _ _ (by decide) (by decide) (by decide) rfl (fun f old h1 _ => by cases h1) (fun f old h1 _ => by cases h1)
theorem good_w7 : GoodWhole o.arith gname names assoc topo [pa, pb] 2 w7 :=
  good_whole _ _ _ _ _ (by decide) (by decide) (by decide) rfl (fun f old h1 _ => by cases h1)
    (fun f old h1 h2 => by cases h1; cases h2; exact ⟨_, _, rfl, rfl, rfl⟩)

theorem once : OnceEach [pa, pb] [w3, w9, w7] where
  ids := by decide
  known := by
    intro p hp x hx
    rcases List.mem_cons.1 hp with rfl | hp
    · rcases List.mem_cons.1 hx with rfl | hx
      · exact ⟨w3, by simp, rfl⟩
      · cases List.mem_singleton.1 hx; exact ⟨w7, by simp, rfl⟩
    · cases List.mem_singleton.1 hp
      rcases List.mem_cons.1 hx with rfl | hx
      · exact ⟨w3, by simp, rfl⟩
      · cases List.mem_singleton.1 hx; exact ⟨w3, by simp, rfl⟩
  once := by
    intro w hw hh
    rcases List.mem_cons.1 hw with rfl | hw
    · have : numbersOf [pa, pb] w3.id = [1, 2, 0] := by decide +kernel
      rw [this]; show [1, 2, 0].Perm (List.range 3); decide
    · rcases List.mem_cons.1 hw with rfl | hw
      · exfalso
        obtain ⟨p, hp, x, hx, hd⟩ := hh
        rcases List.mem_cons.1 hp with rfl | hp
        · rcases List.mem_cons.1 hx with rfl | hx
          · exact absurd hd (by decide)
          · cases List.mem_singleton.1 hx; exact absurd hd (by decide)
        · cases List.mem_singleton.1 hp
          rcases List.mem_cons.1 hx with rfl | hx
          · exact absurd hd (by decide)
          · cases List.mem_singleton.1 hx; exact absurd hd (by decide)
      · cases List.mem_singleton.1 hw
        have : numbersOf [pa, pb] w7.id = [0] := by decide +kernel
        rw [this]; show [0].Perm (List.range 1); decide

/-- The hypotheses are met. -/
example : ∃ outs, mapBack o.arith op gname names [pa.mesh, pb.mesh] [w3.mesh, w9.mesh, w7.mesh] = .ok outs ∧ outs.length = 3 ∧
    ∀ (k : Nat) w out, [w3, w9, w7][k]? = some w → outs[k]? = some out → BroughtBack names assoc topo [pa, pb] w out :=
  C97_back o.arith op gname names assoc topo [pa, pb] [w3, w9, w7]
    (fun p hp => by
      rcases List.mem_cons.1 hp with rfl | hp
      · exact good_pa
      · cases List.mem_singleton.1 hp; exact good_pb)
    (fun k w hk => by
      match k, hk with
      | 0, hk => cases hk; exact good_w3
      | 1, hk => cases hk; exact good_w9
      | 2, hk => cases hk; exact good_w7
      | k + 3, hk => simp at hk)
    once alike_pieces (by decide) (by decide)

/-- A leaf of one of the domains. -/
def leafOf : List Str → BNode Int → Option (List Int)
  | [], .ints _ l => some l
  | [], .flts _ l => some l
  | [], _ => none
  | f :: fs, n => match n.get f with
    | .ok c => leafOf fs c
    | _ => none

def see (r : Res (List (BNode Int))) (k : Nat) (p : List Str) : Option (List Int) :=
  match r with
  | .ok l => (l[k]?).bind fun n => leafOf (chars! "fields" :: p) n
  | _ => none

def isUb {α : Type} : Res α → Bool
  | .ub => true
  | _ => false

def isError {α : Type} : Res α → Bool
  | .error => true
  | _ => false

def all : Res (List (BNode Int)) := mapBack o.arith op gname names [pa.mesh, pb.mesh] [w3.mesh, w9.mesh, w7.mesh]

example : see all 0 [chars! "e", chars! "values"] = some [30, 31, 32] := by decide +kernel
example : see all 0 [chars! "v", chars! "values", chars! "a"] = some [1, 12, 11, 13] := by decide +kernel
example : see all 0 [chars! "v", chars! "values", chars! "b"] = some [4, 15, 14, 16] := by decide +kernel
example : see all 2 [chars! "e", chars! "values"] = some [70] := by decide +kernel
example : see all 2 [chars! "v", chars! "values", chars! "a"] = some [8, 3] := by decide +kernel
example : see all 1 [chars! "e", chars! "values"] = none := by decide +kernel

def back (ps : List (Piece Int)) (ws : List (Whole Int)) : Res (List (BNode Int)) :=
  mapBack o.arith op gname names (ps.map (·.mesh)) (ws.map (·.mesh))

/-- Why all elements of a domain have to be there: with a selection of them, the table of the elements is written beyond its end. -/
theorem C97_missing : isUb (back [pa] [w3, w9, w7]) = true := by decide +kernel

/-- Why each has to be there only once: with one of the new domains twice, the field gets more values than the domain has elements. -/
theorem C97_twice : see (back [pa, pb, pb] [w3, w9, w7]) 0 [chars! "e", chars! "values"] = some [30, 31, 32, 31, 31] := by decide +kernel

/-- Why the domains have to be known: fields on elements are written through a null pointer. -/
theorem C97_unknown : isUb (mapBack o.arith op gname [chars! "e"] [pa.mesh, pb.mesh] [w3.mesh, w9.mesh]) = true := by decide +kernel

/-- Why a field that is there has to have the same components in the same order: they are taken by their place.  The values of `b` become
    those of `a`. -/
def w7s : Whole Int := whole 7 1 [103, 104] [(chars! "v", field (chars! "vertex") (chars! "t")
  (.obj [(chars! "b", .flts true [8, 9]), (chars! "a", .ints int64 [10, 11])]))]

theorem C97_order : see (back [pa, pb] [w3, w9, w7s]) 2 [chars! "v", chars! "values", chars! "a"] = some [10, 6] ∧
    see (back [pa, pb] [w3, w9, w7s]) 2 [chars! "v", chars! "values", chars! "b"] = some [8, 3] := by decide +kernel

/-- Why each of them has to have as many values as needed: only the sum is looked at. -/
def w7t : Whole Int := whole 7 1 [103, 104] [(chars! "v", field (chars! "vertex") (chars! "t") (ab [8, 9, 5, 6] []))]

theorem C97_sizes : isUb (back [pa, pb] [w3, w9, w7t]) = true := by decide +kernel

/-- Why all new domains have to have global numbers of points: without them the values of the points are not brought back, and nothing is
    said. -/
def pb' : BNode Int := .obj [(chars! "fields", .obj ((pieceFs pb.orig [] [32, 30] [11, 12, 13] [14, 15, 16]).filter fun k => k.1 ≠ gname))]

theorem C97_unnumbered : see (mapBack o.arith op gname names [pa.mesh, pb'] [w3.mesh, w9.mesh, w7.mesh]) 0
    [chars! "v", chars! "values", chars! "a"] = some [1, 2, 0, 0] := by decide +kernel

/-- Why something has to be asked for. -/
theorem C97_nothing : isError (mapBack o.arith op gname [] [pa.mesh, pb.mesh] [w3.mesh, w9.mesh, w7.mesh]) = true := by decide +kernel

/-- Without agreement on the shared points the value depends on the order of the new domains. -/
theorem C97_disagree : see (back [pa, pb] [w3, w9, w7]) 0 [chars! "v", chars! "values", chars! "a"] = some [1, 12, 11, 13] ∧
    see (back [pb, pa] [w3, w9, w7]) 0 [chars! "v", chars! "values", chars! "a"] = some [1, 2, 11, 13] := by decide +kernel

end Conduit.Back.Case
