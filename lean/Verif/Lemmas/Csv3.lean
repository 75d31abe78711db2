import Verif.Lemmas.Csv2
/-
Lemmas about columns made and found by their names (C47).
-/
namespace Conduit
open Spec Node Heap CsvFile

/-- parts with slashes between them -/
def slashed : List Str → Str
  | [] => []
  | [a] => a
  | a :: b :: p => a ++ '/' :: slashed (b :: p)

/-- a part of a path that `fetch` takes as a name -/
def Part (a : Str) : Prop := a ≠ [] ∧ a ≠ ['.', '.'] ∧ '/' ∉ a

theorem parts_append {a b : Str} (h : '/' ∉ a) : parts (a ++ '/' :: b) = a :: parts b := by
  unfold parts
  rw [List.splitOn_append_cons_self, List.splitOn_eq_singleton h]; rfl

theorem parts_single {a : Str} (h : '/' ∉ a) : parts a = [a] := List.splitOn_eq_singleton h

theorem parts_ne_nil (s : Str) : parts s ≠ [] := List.splitOn_ne_nil _ _

theorem slashed_cons {a : Str} {p : List Str} (h : p ≠ []) : slashed (a :: p) = a ++ '/' :: slashed p := by
  cases p with
  | nil => exact absurd rfl h
  | cons b p => rfl

theorem parts_spec : ∀ (k : Nat) (s : Str), s.length ≤ k → slashed (parts s) = s ∧ ∀ a ∈ parts s, '/' ∉ a := by
  intro k
  induction k with
  | zero =>
    intro s hs
    have : s = [] := List.length_eq_zero_iff.1 (by omega)
    subst this
    exact ⟨rfl, by simp [parts]⟩
  | succ k ih =>
    intro s hs
    by_cases hm : '/' ∈ s
    · obtain ⟨a, b, rfl, ha⟩ := exists_first hm
      rw [parts_append ha]
      obtain ⟨h1, h2⟩ := ih b (by simp at hs; omega)
      refine ⟨by rw [slashed_cons (parts_ne_nil b), h1], fun c hc => ?_⟩
      rcases List.mem_cons.1 hc with rfl | hc
      · exact ha
      · exact h2 c hc
    · rw [parts_single hm]
      exact ⟨rfl, fun c hc => by rw [List.mem_singleton] at hc; rw [hc]; exact hm⟩

theorem slashed_parts (s : Str) : slashed (parts s) = s := (parts_spec _ s (Nat.le_refl _)).1
theorem parts_part {s : Str} (h : Plain s) : ∀ a ∈ parts s, Part a :=
  fun a ha => ⟨(h a ha).1, (h a ha).2, (parts_spec _ s (Nat.le_refl _)).2 a ha⟩

theorem slashed_ne_nil {p : List Str} (h : ∀ a ∈ p, Part a) (hp : p ≠ []) : slashed p ≠ [] := by
  cases p with
  | nil => exact absurd rfl hp
  | cons a p =>
    have ha := (h a (by simp)).1
    cases p with
    | nil => exact ha
    | cons b p => intro hc; cases a <;> simp_all [slashed]

theorem slashed_split {a : Str} {p : List Str} (ha : Part a) : splitPath (slashed (a :: p)) = (a, slashed p) := by
  unfold splitPath
  cases p with
  | nil => exact splitString_not_mem ha.2.2
  | cons b p => exact splitString_append ha.2.2

/-- the last slash -/
theorem slashed_last {q : List Str} {a : Str} (ha : '/' ∉ a) (hq : q ≠ []) : slashed (q ++ [a]) = slashed q ++ '/' :: a := by
  induction q with
  | nil => exact absurd rfl hq
  | cons b q ih =>
    cases q with
    | nil => rfl
    | cons c q =>
      have e : slashed (c :: q ++ [a]) = slashed (c :: q) ++ '/' :: a := ih (by simp)
      show b ++ '/' :: slashed (c :: q ++ [a]) = _
      rw [e]
      simp [slashed]

namespace HT
section
variable {h : Heap} {L : Prop} {pn ps : Option Nat} {own : Bool}

theorem IsObj.dtype {T : HT} (g : Good h L pn ps own T) (ho : IsObj T) : ∃ d, dtypeN h T.nid = .ok d ∧ d.id = .object := by
  obtain ⟨n, s, x, k, cs⟩ := T
  obtain ⟨names, hk⟩ := ho
  have hk' : k = .obj names := hk
  subst hk'
  exact ⟨_, dtypeN_spec g, rfl⟩

/-- one name of a path, in a node that is made an object -/
theorem fetchN_init {h0 : Heap} {n : Nat} {d : DataType} (hd : dtypeN h0 n = .ok d)
    (hi : (if d.id = .object then Res.ok h0 else h0.initN n { id := .object }) = .ok h) {a : Str} {p : List Str} (ha : Part a)
    (hp : ∀ b ∈ p, Part b) {r : Heap × Nat} (e : addChildN h n a = .ok r) :
    fetchN h0 n (slashed (a :: p)) = if p = [] then .ok (r.1, some r.2) else fetchN r.1 r.2 (slashed p) := by
  rw [fetchN, hd]
  simp only [hi]
  rw [if_neg (slashed_ne_nil (fun b hb => by
    rcases List.mem_cons.1 hb with rfl | hb
    · exact ha
    · exact hp b hb) (by simp))]
  rw [slashed_split ha]
  simp only
  rw [dif_neg ha.1, dif_neg ha.2.1, e]
  simp only
  by_cases hpn : p = []
  · rw [if_pos hpn, dif_pos (by rw [hpn]; rfl)]
  · rw [if_neg hpn, dif_neg (slashed_ne_nil hp hpn)]

/-- one name of a path, in an object -/
theorem fetchN_step {n : Nat} {d : DataType} (hd : dtypeN h n = .ok d) (ho : d.id = .object) {a : Str} {p : List Str} (ha : Part a)
    (hp : ∀ b ∈ p, Part b) {r : Heap × Nat} (e : addChildN h n a = .ok r) :
    fetchN h n (slashed (a :: p)) = if p = [] then .ok (r.1, some r.2) else fetchN r.1 r.2 (slashed p) :=
  fetchN_init hd (if_pos ho) ha hp e

/-- `fetch` of a path that exists changes nothing -/
theorem fetch_found : ∀ (p : List Str) (T : HT) (pn ps : Option Nat) (own : Bool) (C : HT), Good h L pn ps own T → p ≠ [] → (∀ a ∈ p, Part a) →
    find p T = some C → fetchN h T.nid (slashed p) = .ok (h, some C.nid)
  | [], _, _, _, _, _, _, hp, _, _ => absurd rfl hp
  | a :: p, mk n s x k cs, pn, ps, own, C, g, _, hpl, hf => by
    obtain ⟨names, i, c, hk, hi, hc, hf'⟩ := find_inv hf
    have hk' : k = .obj names := hk
    have hc' : cs[i]? = some c := hc
    subst hk'
    have e : addChildN h n a = .ok (h, c.nid) := by
      rcases addChildN_spec g a (by intro hh; cases hh) with ⟨names', i', c', e1, e2, e3, e4⟩ | ⟨names', h', e1, e2, e3, _⟩
      · injection e1 with e1
        subst e1
        rw [hi] at e2
        injection e2 with e2
        subst e2
        rw [hc'] at e3
        injection e3 with e3
        subst e3
        exact e4
      · exfalso
        rcases e3 with e3 | ⟨e3, _⟩
        · injection e3 with e3
          subst e3
          obtain ⟨hl, hx, _⟩ := List.findIdx?_eq_some_iff_getElem.1 hi
          simp at hx
          exact e2 (hx ▸ List.getElem_mem hl)
        · exact e3 _ rfl
    obtain ⟨d, hd, hdo⟩ := IsObj.dtype g ⟨names, rfl⟩
    rw [show (mk n s x (.obj names) cs).nid = n from rfl] at hd ⊢
    rw [fetchN_step hd hdo (hpl a (by simp)) (fun b hb => hpl b (by simp [hb])) e]
    by_cases hpn : p = []
    · rw [if_pos hpn]
      subst hpn
      injection hf' with hf'
      rw [hf']
    · rw [if_neg hpn]
      exact fetch_found p c _ _ _ C (g.child (List.mem_of_getElem? hc')) hpn (fun b hb => hpl b (by simp [hb])) hf'

/-- Tree `T` became `T'` by making the path `p`. -/
structure Made (T T' : HT) (p : List Str) : Prop where
  keep : ∀ q D, find q T = some D → ¬ IsObj D → ¬ Fresh D → find q T' = some D
  back : ∀ q D, find q T' = some D → find q T = some D ∨ (q <+: p ∧ (IsObj D ∨ (q = p ∧ Fresh D)))

theorem fresh_not_obj {T : HT} (hf : Fresh T) : ¬ IsObj T := by
  obtain ⟨n, s, rfl⟩ := hf
  rintro ⟨names, hk⟩
  cases hk

/-- the names of an object with one more, if it is new -/
def withName (names : List Str) (a : Str) : List Str := if a ∈ names then names else names ++ [a]

/-- the names of a node: none when it was just made -/
def topNames (T : HT) : List Str :=
  match T.kind with
  | .obj names => names
  | _ => []

/-- `add_child` on an object or a new node -/
theorem add_make {T : HT} (g : Good h L pn ps own T) (ht : IsObj T ∨ Fresh T) (a : Str) :
    ∃ h' T' C, addChildN h T.nid a = .ok (h', C.nid) ∧ Good h' L pn ps own T' ∧ Step h T h' T' ∧ h'.mem = h.mem ∧ find [a] T' = some C ∧
      T'.kind = .obj (withName (topNames T) a) ∧
      (find [a] T = some C ∧ h' = h ∧ T' = T ∨ find [a] T = none ∧ Fresh C ∧ (∀ b q, b ≠ a → find (b :: q) T' = find (b :: q) T)) := by
  obtain ⟨n, s, x, k, cs⟩ := T
  rcases addChildN_spec g a (by
    rintro rfl
    rcases ht with ⟨names, hk⟩ | ⟨n', s', hk⟩ <;> cases hk) with ⟨names, i, c, rfl, e2, e3, e4⟩ | ⟨names, h', hl, hn, hk, e, gg, st⟩
  · have hf : find [a] (mk n s x (.obj names) cs) = some c := by rw [find_cons e2 e3]; rfl
    refine ⟨h, _, c, e4, g, Step.refl _ g.bounded, rfl, hf, ?_, .inl ⟨hf, rfl, rfl⟩⟩
    have hm : a ∈ names := by
      obtain ⟨hl, hx, _⟩ := List.findIdx?_eq_some_iff_getElem.1 e2
      simp at hx
      exact hx ▸ List.getElem_mem hl
    show Kind.obj names = Kind.obj (withName names a)
    unfold withName
    rw [if_pos hm]
  · have hfa : (names ++ [a]).findIdx? (· == a) = some cs.length := by
      rw [List.findIdx?_append, List.findIdx?_eq_none_iff.2 (by
        intro b hb; simp; rintro rfl; exact hn hb)]
      simp [List.findIdx?_cons, hl]
    have hca : (cs ++ [mk h.nextN h.nextS {} (.leaf {}) []])[cs.length]? = some (mk h.nextN h.nextS {} (.leaf {}) []) := by simp
    have hnames : topNames (mk n s x k cs) = names := by
      rcases hk with rfl | ⟨h1, rfl⟩
      · rfl
      · unfold topNames
        cases k with
        | obj l => exact absurd rfl (h1 l)
        | _ => rfl
    refine ⟨h', _, mk h.nextN h.nextS {} (.leaf {}) [], e, gg, st, addChildN_mem e, by rw [find_cons hfa hca]; rfl, ?_, .inr ⟨?_, ⟨_, _, rfl⟩, ?_⟩⟩
    · rw [hnames]
      unfold withName
      rw [if_neg hn]
      rfl
    · cases hf : find [a] (mk n s x k cs) with
      | none => rfl
      | some D =>
        obtain ⟨names', i, c, h1, h2, _⟩ := find_inv hf
        have h1' : k = .obj names' := h1
        exfalso
        rcases hk with hk | ⟨hk, _⟩
        · rw [h1'] at hk
          injection hk with hk
          subst hk
          obtain ⟨hl, hx, _⟩ := List.findIdx?_eq_some_iff_getElem.1 h2
          simp at hx
          exact hn (hx ▸ List.getElem_mem hl)
        · exact hk _ h1'
    · intro b q hb
      have hfb : (names ++ [a]).findIdx? (· == b) = names.findIdx? (· == b) := by
        rw [List.findIdx?_append]
        have : ¬ a = b := fun hc => hb hc.symm
        cases names.findIdx? (· == b) <;> simp [List.findIdx?_cons, this]
      rcases hk with rfl | ⟨h1, rfl⟩
      · simp only [find, hfb]
        cases hj : names.findIdx? (· == b) with
        | none => rfl
        | some j =>
          obtain ⟨hjl, _⟩ := List.findIdx?_eq_some_iff_getElem.1 hj
          rw [hl] at hjl
          simp only [List.getElem?_append_left hjl]
      · have : find (b :: q) (mk n s x k cs) = none := by
          cases k with
          | obj l => exact absurd rfl (h1 l)
          | _ => rfl
        rw [this]
        simp only [find, hfb, List.findIdx?_nil]

/-- a new node becomes an object -/
theorem init_obj {T : HT} (g : Good h L pn ps own T) (ht : Fresh T) :
    ∃ h' T', initN h T.nid { id := .object } = .ok h' ∧ Good h' L pn ps own T' ∧ Step h T h' T' ∧ h'.mem = h.mem ∧ T'.kind = .obj [] := by
  obtain ⟨n, s, rfl⟩ := ht
  rcases initN_spec g { id := .object } (by simp) with ⟨hc, _⟩ | ⟨_, h', x', e, gg, st⟩
  · cases hc
  · refine ⟨h', _, e, gg, st, ?_, rfl⟩
    obtain ⟨q, hq, _⟩ := g.get
    rw [initN, getN_some hq, dtypeN_spec g] at e
    simp only [Res.bind_ok] at e
    rw [if_neg (by decide)] at e
    simp only [show ((({} : Info).data.isSome) || ((Kind.leaf {}).dtype.id == TypeId.object || (Kind.leaf {}).dtype.id == TypeId.list)) = false by rfl,
      Bool.false_eq_true, if_false, Res.bind_ok] at e
    exact (setDtypeS_frame e).1

theorem find_objNil {T : HT} (hk : T.kind = .obj []) {q : List Str} {D : HT} (hf : find q T = some D) : q = [] ∧ D = T := by
  obtain ⟨n, s, x, k, cs⟩ := T
  have hk' : k = .obj [] := hk
  subst hk'
  cases q with
  | nil => injection hf with hf; exact ⟨rfl, hf.symm⟩
  | cons a q => cases hf

/-- a new node of the type of a column -/
theorem init_leaf {T : HT} (g : Good h L pn ps own T) (ht : Fresh T) {d : DataType}
    (hd : d.id = .float32 ∨ d.id = .float64) (hs : 0 ≤ d.spannedBytes) :
    ∃ h' T', initN h T.nid d = .ok h' ∧ Good h' L pn ps own T' ∧ Step h T h' T' ∧
      h'.mem = h.mem ++ [some (List.replicate d.spannedBytes.toNat 0)] ∧ T' = mk T.nid T.sid ⟨some ⟨h.mem.length, 0⟩, true⟩ (.leaf d) [] := by
  obtain ⟨n, s, rfl⟩ := ht
  have hne : (d.id != .object && d.id != .list && d.id != .empty) = true := by rcases hd with hd | hd <;> rw [hd] <;> rfl
  rcases initN_spec g d (fun _ => hs) with ⟨hc, _⟩ | ⟨hc, h', x', e, gg, st⟩
  · exfalso
    unfold DataType.compatible Kind.dtype at hc
    rcases hd with hd | hd <;> rw [hd] at hc <;> cases hc
  · obtain ⟨q, hq, _⟩ := g.get
    have hk : Kind.ofDtype d = .leaf d := by unfold Kind.ofDtype; rcases hd with hd | hd <;> rw [hd]
    have key : h'.mem = h.mem ++ [some (List.replicate d.spannedBytes.toNat 0)] ∧ x' = ⟨some ⟨h.mem.length, 0⟩, true⟩ := by
      have e0 := e
      rw [initN, getN_some hq, dtypeN_spec g] at e
      simp only [Res.bind_ok] at e
      rw [if_neg (by rw [hc]; decide)] at e
      simp only [show ((({} : Info).data.isSome) || ((Kind.leaf {}).dtype.id == TypeId.object || (Kind.leaf {}).dtype.id == TypeId.list)) = false by rfl,
        Bool.false_eq_true, if_false, Res.bind_ok] at e
      rw [if_pos hne, allocN, getN_some hq, allocate_nonneg hs] at e
      simp only [Res.bind_ok] at e
      obtain ⟨e1, e2⟩ := setDtypeS_frame e
      refine ⟨e1, ?_⟩
      obtain ⟨q', hq', _⟩ := gg.get
      rw [e2] at hq'
      simp only [putN_nodes, if_true] at hq'
      injection hq' with hq'
      injection hq' with _ _ _ _ hx
      rw [← hx]; rfl
    obtain ⟨k1, rfl⟩ := key
    rw [hk] at gg st
    exact ⟨h', _, e, gg, st, k1, rfl⟩

theorem Made.refl (T : HT) (p : List Str) : Made T T p := ⟨fun _ _ h _ _ => h, fun _ _ h => .inl h⟩

/-- A tree changed at the end of a path that it has. -/
theorem graft_made {q r : List Str} {T T' C C' : HT} (hC : find q T = some C) (hr : ∀ p, find (q ++ p) T' = find p C')
    (hp : ∀ p, ¬ q <+: p → (find p T' = find p T ∨ ((∃ D, find p T' = some D ∧ IsObj D) ∧ (∃ D, find p T = some D ∧ IsObj D) ∧ p <+: q)))
    (m : Made C C' r) : Made T T' (q ++ r) := by
  constructor
  · intro p D hf h1 h2
    by_cases hq : q <+: p
    · obtain ⟨z, rfl⟩ := hq
      rw [find_append, hC, Option.bind_some] at hf
      rw [hr]
      exact m.keep z D hf h1 h2
    · rcases hp p hq with e | ⟨_, ⟨D', e, ho⟩, _⟩
      · rw [e]; exact hf
      · rw [hf] at e
        injection e with e
        subst e
        exact absurd ho h1
  · intro p D hf
    by_cases hq : q <+: p
    · obtain ⟨z, rfl⟩ := hq
      rw [hr] at hf
      rcases m.back z D hf with e | ⟨e1, e2⟩
      · left; rw [find_append, hC]; exact e
      · right
        refine ⟨(List.prefix_append_right_inj q).2 e1, ?_⟩
        rcases e2 with e2 | ⟨e2, e3⟩
        · exact .inl e2
        · exact .inr ⟨by rw [e2], e3⟩
    · rcases hp p hq with e | ⟨⟨D', e, ho⟩, _, e3⟩
      · left; rw [← e]; exact hf
      · rw [hf] at e
        injection e with e
        subst e
        exact .inr ⟨e3.trans (List.prefix_append q r), .inl ho⟩

/-- `add_child` makes a path of one name -/
theorem add_made {T T' C : HT} (ht : IsObj T ∨ Fresh T) {a : Str} {names : List Str} (hC : find [a] T' = some C) (hk : T'.kind = .obj names)
    (hn : find [a] T = none) (hf : Fresh C) (hb : ∀ b q, b ≠ a → find (b :: q) T' = find (b :: q) T) : Made T T' [a] := by
  have ha : ∀ q, find (a :: q) T = none := by
    intro q
    cases hx : find (a :: q) T with
    | none => rfl
    | some D =>
      rw [show a :: q = [a] ++ q from rfl, find_append, hn] at hx
      cases hx
  constructor
  · intro q D hq h1 h2
    cases q with
    | nil =>
      injection hq with hq
      subst hq
      rcases ht with ht | ht
      · exact absurd ht h1
      · exact absurd ht h2
    | cons b q =>
      by_cases hba : b = a
      · subst hba
        rw [ha] at hq
        cases hq
      · rw [hb b q hba]; exact hq
  · intro q D hq
    cases q with
    | nil =>
      injection hq with hq
      subst hq
      exact .inr ⟨List.nil_prefix, .inl ⟨_, hk⟩⟩
    | cons b q =>
      by_cases hba : b = a
      · subst hba
        rw [show b :: q = [b] ++ q from rfl, find_append, hC, Option.bind_some] at hq
        obtain ⟨rfl, rfl⟩ := find_fresh hf hq
        exact .inr ⟨List.prefix_refl _, .inr ⟨rfl, hf⟩⟩
      · left; rw [← hb b q hba]; exact hq

/-- `fetch` makes what is missing of a path; on the way there are only objects. -/
theorem fetch_make {L : Prop} : ∀ (p : List Str) (h : Heap) (T : HT) (pn ps : Option Nat) (own : Bool), Good h L pn ps own T → (IsObj T ∨ Fresh T) →
    p ≠ [] → (∀ a ∈ p, Part a) → (∀ q D, q <+: p → q ≠ [] → find q T = some D → IsObj D) →
    ∃ h' T' C, fetchN h T.nid (slashed p) = .ok (h', some C.nid) ∧ Good h' L pn ps own T' ∧ Step h T h' T' ∧ h'.mem = h.mem ∧ find p T' = some C ∧
      (IsObj C ∨ Fresh C) ∧ Made T T' p ∧ T'.kind = .obj (match p.head? with | some a => withName (topNames T) a | none => [])
  | [], _, _, _, _, _, _, _, hp, _, _ => absurd rfl hp
  | a :: p, h, T, pn, ps, own, g, ht, _, hpl, hway => by
    have hpa := hpl a (by simp)
    have hpp : ∀ b ∈ p, Part b := fun b hb => hpl b (by simp [hb])
    -- the root is an object
    obtain ⟨h1, T1, e1, g1, s1, m1, o1, k1, f1⟩ : ∃ h1 T1, (∀ cur, dtypeN h T.nid = .ok cur → (if cur.id = .object then Res.ok h else h.initN T.nid { id := .object }) = .ok h1) ∧
        Good h1 L pn ps own T1 ∧ Step h T h1 T1 ∧ h1.mem = h.mem ∧ IsObj T1 ∧ topNames T1 = topNames T ∧
        (∀ q, q ≠ [] → find q T1 = find q T) := by
      rcases ht with ht | ht
      · obtain ⟨d, hd, hdo⟩ := IsObj.dtype g ht
        refine ⟨h, T, fun cur hc => ?_, g, Step.refl _ g.bounded, rfl, ht, rfl, fun _ _ => rfl⟩
        rw [hd] at hc
        injection hc with hc
        rw [← hc, if_pos hdo]
      · obtain ⟨h1, T1, e1, g1, s1, m1, k1⟩ := init_obj g ht
        refine ⟨h1, T1, fun cur hc => ?_, g1, s1, m1, ⟨_, k1⟩, ?_, fun q hq => ?_⟩
        · obtain ⟨n, s, rfl⟩ := ht
          rw [show dtypeN h (mk n s {} (.leaf {}) []).nid = _ from dtypeN_spec g] at hc
          injection hc with hc
          rw [← hc, if_neg (by decide), e1]
        · unfold topNames
          rw [k1]
          obtain ⟨n, s, rfl⟩ := ht
          rfl
        · cases h1 : find q T1 with
          | some D => exact absurd (find_objNil k1 h1).1 hq
          | none =>
            cases h2 : find q T with
            | some D => exact absurd (find_fresh ht h2).1 hq
            | none => rfl
    have hM1 : ∀ {T' : HT} {r : List Str}, Made T1 T' (a :: r) → Made T T' (a :: r) := by
      intro T' r m
      constructor
      · intro q D hq n1 n2
        cases q with
        | nil =>
          injection hq with hq
          subst hq
          rcases ht with ht | ht
          · exact absurd ht n1
          · exact absurd ht n2
        | cons b q => exact m.keep _ D (by rw [f1 _ (by simp)]; exact hq) n1 n2
      · intro q D hq
        rcases m.back q D hq with e | e
        · cases q with
          | nil =>
            injection e with e
            subst e
            exact .inr ⟨List.nil_prefix, .inl o1⟩
          | cons b q => left; rw [← f1 _ (by simp)]; exact e
        · exact .inr e
    -- the first name
    obtain ⟨h2, T2, C, e2, g2, s2, m2, c2, k2, alt⟩ := add_make g1 (.inl o1) a
    have hn1 : T1.nid = T.nid := s1.nid
    have hn2 : T2.nid = T1.nid := s2.nid
    have hM2 : Made T1 T2 [a] := by
      rcases alt with ⟨_, _, rfl⟩ | ⟨x1, x2, x3⟩
      · exact Made.refl _ _
      · exact add_made (.inl o1) c2 k2 x1 x2 x3
    have hC : IsObj C ∨ Fresh C := by
      rcases alt with ⟨x1, _, _⟩ | ⟨_, x2, _⟩
      · left
        refine hway [a] C ?_ (by simp) (by rw [← f1 _ (by simp)]; exact x1)
        rw [List.cons_prefix_cons]; exact ⟨rfl, List.nil_prefix⟩
      · exact .inr x2
    have hfe : fetchN h T.nid (slashed (a :: p)) = if p = [] then .ok (h2, some C.nid) else fetchN h2 C.nid (slashed p) := by
      have hcur : ∃ cur, dtypeN h T.nid = .ok cur := by
        obtain ⟨n, s, x, k, cs⟩ := T
        exact ⟨_, dtypeN_spec g⟩
      obtain ⟨cur, hcur⟩ := hcur
      rw [hn1] at e2
      exact fetchN_init hcur (e1 cur hcur) hpa hpp e2
    by_cases hpn : p = []
    · subst hpn
      rw [if_pos rfl] at hfe
      refine ⟨h2, T2, C, hfe, g2, s1.trans s2, m2.trans m1, c2, hC, hM1 hM2, ?_⟩
      simp only [List.head?_cons]
      rw [k2, k1]
    · rw [if_neg hpn] at hfe
      obtain ⟨pn', ps', own', gC, H⟩ := graft [a] T2 pn ps own C g2 c2
      obtain ⟨h3, C3, D, e3, g3, s3, m3, c3, o3, M3, k3⟩ := fetch_make p h2 C pn' ps' own' gC hC hpn hpp (by
        intro q D hq hne hf
        rcases alt with ⟨x1, x2, x3⟩ | ⟨_, x2, _⟩
        · refine hway (a :: q) D (by rw [List.cons_prefix_cons]; exact ⟨rfl, hq⟩) (by simp) ?_
          rw [← f1 _ (by simp), show a :: q = [a] ++ q from rfl, find_append, x1]
          exact hf
        · exact absurd (find_fresh x2 hf).1 hne)
      obtain ⟨T3, g4, s4, k4, _, r4, p4⟩ := H h3 C3 g3 s3
      have hM3 := graft_made c2 r4 p4 M3
      refine ⟨h3, T3, D, hfe.trans e3, g4, (s1.trans s2).trans s4, (m3.trans m2).trans m1, ?_, o3, hM1 ?_, ?_⟩
      · rw [show a :: p = [a] ++ p from rfl, r4]; exact c3
      · -- two steps
        constructor
        · intro q D hq n1 n2
          have := hM2.keep q D hq n1 n2
          exact hM3.keep q D this n1 n2
        · intro q D hq
          rcases hM3.back q D hq with e | e
          · rcases hM2.back q D e with e | ⟨e5, e6⟩
            · exact .inl e
            · right
              refine ⟨e5.trans (by rw [List.cons_prefix_cons]; exact ⟨rfl, List.nil_prefix⟩), ?_⟩
              rcases e6 with e6 | ⟨e6, e7⟩
              · exact .inl e6
              · subst e6
                -- the node at [a] has been changed to an object
                rw [show ([a] : List Str) = [a] ++ [] by simp, r4] at hq
                left
                injection hq with hq
                subst hq
                exact ⟨_, k3⟩
          · exact .inr e
      · rw [k4 (by simp)]
        simp only [List.head?_cons]
        rw [k2, k1]

end
end HT

/-- `add_column` of a new name -/
theorem Csv.addColumn_make {h : Heap} {L : Prop} {pn ps : Option Nat} {own : Bool} {T : HT} (g : HT.Good h L pn ps own T) (ht : T.IsObj ∨ T.Fresh) {name : Str}
    (hp : Plain name) (hway : ∀ q D, q <+: parts name → q ≠ [] → HT.find q T = some D → D.IsObj) (hnew : HT.find (parts name) T = none) :
    ∃ h' T' C, addColumn h T.nid name = .ok (h', C.nid) ∧ HT.Good h' L pn ps own T' ∧ HT.Step h T h' T' ∧ h'.mem = h.mem ∧
      HT.find (parts name) T' = some C ∧ C.Fresh ∧ HT.Made T T' (parts name) ∧
      T'.kind = .obj (match (parts name).head? with | some a => HT.withName T.topNames a | none => []) := by
  have hparts := parts_part hp
  have hname : slashed (parts name) = name := slashed_parts name
  have hne : name ≠ [] := by
    rw [← hname]; exact slashed_ne_nil hparts (parts_ne_nil _)
  unfold addColumn
  rw [if_neg hne]
  generalize parts name = p at *
  have hpn : p ≠ [] := by rintro rfl; exact hne hname.symm
  obtain ⟨q, a, rfl⟩ : ∃ q a, p = q ++ [a] := ⟨p.dropLast, p.getLast hpn, (List.dropLast_append_getLast hpn).symm⟩
  have ha := hparts a (by simp)
  by_cases hq : q = []
  · subst hq
    have e0 : name = a := hname.symm
    subst e0
    rw [show rfind '/' name = none by
      unfold rfind; rw [Option.map_eq_none_iff, List.findIdx?_eq_none_iff]; intro x hx; simp; rintro rfl; exact ha.2.2 (by simpa using hx)]
    simp only
    obtain ⟨h2, T2, C, e2, g2, s2, m2, c2, k2, alt⟩ := HT.add_make g ht name
    rcases alt with ⟨x1, _, _⟩ | ⟨x1, x2, x3⟩
    · have hnew' : HT.find [name] T = none := hnew
      rw [hnew'] at x1
      cases x1
    · exact ⟨h2, T2, C, e2, g2, s2, m2, c2, x2, HT.add_made ht c2 k2 x1 x2 x3, k2⟩
  · have e0 : name = slashed q ++ '/' :: a := by rw [← hname, slashed_last ha.2.2 hq]
    rw [show rfind '/' name = some (slashed q).length by rw [e0]; exact rfind_append ha.2.2]
    simp only
    have ht1 : name.take (slashed q).length = slashed q := by rw [e0]; simp
    have ht2 : name.drop ((slashed q).length + 1) = a := by rw [e0]; simp
    rw [ht1, ht2]
    obtain ⟨h1, T1, C, e1, g1, s1, m1, c1, o1, M1, k1⟩ := HT.fetch_make q h T pn ps own g ht hq (fun b hb => hparts b (by simp [hb]))
      (fun r D hr hne hf => hway r D (hr.trans (List.prefix_append _ _)) hne hf)
    rw [e1]
    simp only [Res.bind_ok]
    obtain ⟨pn', ps', own', gC, H⟩ := HT.graft q T1 pn ps own C g1 c1
    obtain ⟨h2, C2, E, e2, g2, s2, m2, c2, k2, alt⟩ := HT.add_make gC o1 a
    have hnewC : HT.find [a] C = none := by
      cases hx : HT.find [a] C with
      | none => rfl
      | some D =>
        have hf : HT.find (q ++ [a]) T1 = some D := by rw [HT.find_append, c1]; exact hx
        rcases M1.back _ _ hf with e | ⟨e, _⟩
        · rw [hnew] at e; cases e
        · have := e.length_le
          simp at this
          omega
    rcases alt with ⟨x1, _, _⟩ | ⟨x1, x2, x3⟩
    · rw [hnewC] at x1
      cases x1
    · have MC := HT.add_made o1 c2 k2 x1 x2 x3
      obtain ⟨T3, g4, s4, k4, _, r4, p4⟩ := H h2 C2 g2 s2
      have M3 := HT.graft_made c1 r4 p4 MC
      refine ⟨h2, T3, E, e2, g4, s1.trans s4, m2.trans m1, by rw [r4]; exact c2, x2, ⟨?_, ?_⟩, ?_⟩
      · intro r D hr n1 n2
        exact M3.keep r D (M1.keep r D hr n1 n2) n1 n2
      · intro r D hr
        rcases M3.back r D hr with e | e
        · rcases M1.back r D e with e | ⟨e5, e6⟩
          · exact .inl e
          · right
            refine ⟨e5.trans (List.prefix_append _ _), ?_⟩
            rcases e6 with e6 | ⟨e6, e7⟩
            · exact .inl e6
            · subst e6
              rw [show r = r ++ [] by simp, r4] at hr
              injection hr with hr
              subst hr
              exact .inl ⟨_, k2⟩
        · exact .inr e
      · rw [k4 hq, k1]
        cases q with
        | nil => exact absurd rfl hq
        | cons b q => rfl

end Conduit
