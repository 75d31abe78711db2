import Verif.Lemmas.Silo3
/-
The maps of uni-buffer and multi-buffer matsets.
-/
namespace Conduit.Matset
open Conduit.O2M (rd wr ones size target entries Valid Consecutive)
variable {α β γ δ σ : Type}

/-! ### uni-buffer -/

/-- what one data element adds: element, material number, volume fraction, field value -/
def uentry (big : α → Bool) (S : Sbe α) (fv : Option (List β)) (dα : α) (dβ : β) (e d : Nat) : List (Nat × Int × α × Option β) :=
  if big (S.vals.getD d dα) then [(e, S.ids.getD d 0, S.vals.getD d dα, fv.map (·.getD d dβ))] else []

def uall (big : α → Bool) (S : Sbe α) (el : Nat → Nat) (fv : Option (List β)) (dα : α) (dβ : β) : List (Nat × Int × α × Option β) :=
  (List.range (ones S.rel)).flatMap fun i => (List.range (size S.rel i)).flatMap fun k =>
    uentry big S fv dα dβ (el i) (target S.rel i k).toNat

def vfPart (pre : List (Nat × Int × α × Option β)) : List (Nat × Int × α) := pre.map fun x => (x.1, x.2.1, x.2.2.1)
def mvPart (pre : List (Nat × Int × α × Option β)) : List (Nat × Int × β) := pre.filterMap fun x => x.2.2.2.map fun w => (x.1, x.2.1, w)

def Built2 (N : Nat) (pre : List (Nat × Int × α × Option β)) (M : Maps α β) : Prop := Built N (vfPart pre) M.vf ∧ Built N (mvPart pre) M.mv

theorem uniEntry_step (big : α → Bool) (S : Sbe α) (fv : Option (List β)) (dα : α) (dβ : β) (N e d : Nat) (he : e < N)
    (h1 : d < S.ids.length) (h2 : d < S.vals.length) (h3 : ∀ f, fv = some f → d < f.length) (pre) (M : Maps α β) (h : Built2 N pre M) :
    ∃ M', uniEntry big S fv (e : Int) M (d : Int) = .ok M' ∧ Built2 N (pre ++ uentry big S fv dα dβ e d) M' := by
  unfold uniEntry uentry
  rw [O2M.rd_getD _ _ dα h2, Res.bind_ok]
  have hfv : rdField fv (d : Int) = .ok (fv.map (·.getD d dβ)) := by
    cases hf : fv with
    | none => rfl
    | some f =>
      show (rd f (d : Int) >>= fun w => Res.ok (some w)) = _
      rw [O2M.rd_getD _ _ dβ (h3 f hf)]; rfl
  rw [hfv, Res.bind_ok, O2M.rd_getD _ _ 0 h1, Res.bind_ok]
  by_cases hb : big (S.vals.getD d dα) = true
  · rw [if_pos hb, if_pos hb]
    obtain ⟨vf, p1, p2⟩ := h.1.step e he (S.ids.getD d 0) (S.vals.getD d dα)
    rw [p1, Res.bind_ok]
    cases hf : fv with
    | none =>
      refine ⟨⟨vf, M.mv⟩, rfl, ?_, ?_⟩
      · unfold vfPart; rw [List.map_append]; exact p2
      · unfold mvPart
        rw [List.filterMap_append]
        simpa [mvPart] using h.2
    | some f =>
      obtain ⟨mv, q1, q2⟩ := h.2.step e he (S.ids.getD d 0) (f.getD d dβ)
      refine ⟨⟨vf, mv⟩, ?_, ?_, ?_⟩
      · show (putAt M.mv (e : Int) (S.ids.getD d 0) (f.getD d dβ) >>= fun mv => Res.ok (⟨vf, mv⟩ : Maps α β)) = _
        rw [q1]; rfl
      · unfold vfPart; rw [List.map_append]; exact p2
      · unfold mvPart
        rw [List.filterMap_append]
        exact q2
  · rw [if_neg hb, if_neg hb]
    exact ⟨M, rfl, by simpa using h⟩

theorem uniMaps_spec (big : α → Bool) (S : Sbe α) (eids : Option (List Int)) (fv : Option (List β)) (dα : α) (dβ : β) (N : Nat) (el : Nat → Nat)
    (hv : Valid S.rel) (hc : Consecutive S.rel) (hpos : ∀ i < ones S.rel, 0 < size S.rel i)
    (htp : ∀ i < ones S.rel, ∀ j < size S.rel i, 0 ≤ target S.rel i j)
    (hcount : uniCount S eids = (N : Int)) (hel : ∀ i < ones S.rel, elemAt eids (i : Int) = .ok (el i : Int) ∧ el i < N)
    (hd : ∀ i d, Slot S i d → d < S.ids.length ∧ d < S.vals.length) (hf : ∀ f, fv = some f → S.vals.length ≤ f.length)
    (fuel : Nat) (hfuel : ones S.rel + O2M.pfx S.rel (ones S.rel) + 1 < fuel) :
    ∃ M : Maps α β, uniMaps big S eids fv fuel = some (.ok M) ∧ Built2 N (uall big S el fv dα dβ) M := by
  unfold uniMaps
  rw [hcount, show (⟨0, 0⟩ : O2M.It) = itAt S.rel 0 from rfl,
    oneLoop_eq S.rel hv hc hpos (elemAt eids) (uniEntry big S fv) (ones S.rel) 0 fuel _ (by omega) (by omega), ← List.range_eq_range']
  have hinit : Built2 N ([] : List (Nat × Int × α × Option β)) (Maps.init (α := α) (β := β) (N : Int).toNat) := ⟨.nil N, .nil N⟩
  obtain ⟨M, h1, h2⟩ := fold_steps (P := Built2 (α := α) (β := β) N)
    (F := fun i => (List.range (size S.rel i)).flatMap fun k => uentry big S fv dα dβ (el i) (target S.rel i k).toNat)
    (f := fun s (i : Nat) => do
          let e ← elemAt eids (i : Int)
          (List.range (size S.rel i)).foldlM (fun s (k : Nat) => uniEntry big S fv e s (target S.rel i k)) s)
    (List.range (ones S.rel)) (by
      intro s pre i hi hP
      rw [List.mem_range] at hi
      obtain ⟨he1, he2⟩ := hel i hi
      rw [he1, Res.bind_ok]
      exact fold_steps (P := Built2 (α := α) (β := β) N) (F := fun k => uentry big S fv dα dβ (el i) (target S.rel i k).toNat)
        (List.range (size S.rel i)) (by
          intro s pre k hk hP
          rw [List.mem_range] at hk
          have ht := htp i hi k hk
          have hcast : target S.rel i k = (((target S.rel i k).toNat : Nat) : Int) := by omega
          have hs : Slot S i (target S.rel i k).toNat := ⟨hi, k, hk, hcast⟩
          obtain ⟨a, b⟩ := hd _ _ hs
          have := uniEntry_step big S fv dα dβ N (el i) (target S.rel i k).toNat he2 a b (fun f h => by have := hf f h; omega) pre s hP
          rw [← hcast] at this
          exact this) pre s hP) [] _ hinit
  exact ⟨M, congrArg some h1, by simpa [uall] using h2⟩

theorem mem_uall (big : α → Bool) (S : Sbe α) (el : Nat → Nat) (fv : Option (List β)) (dα : α) (dβ : β)
    (htp : ∀ i < ones S.rel, ∀ j < size S.rel i, 0 ≤ target S.rel i j)
    (hd : ∀ i d, Slot S i d → d < S.ids.length ∧ d < S.vals.length) (x : Nat × Int × α × Option β) :
    x ∈ uall big S el fv dα dβ ↔ ∃ i d, Slot S i d ∧ x.1 = el i ∧ S.ids[d]? = some x.2.1 ∧ S.vals[d]? = some x.2.2.1 ∧ big x.2.2.1 = true ∧
      x.2.2.2 = fv.map (·.getD d dβ) := by
  have hent : ∀ e d, d < S.ids.length → d < S.vals.length → (x ∈ uentry big S fv dα dβ e d ↔ x.1 = e ∧ S.ids[d]? = some x.2.1 ∧
      S.vals[d]? = some x.2.2.1 ∧ big x.2.2.1 = true ∧ x.2.2.2 = fv.map (·.getD d dβ)) := by
    intro e d h1 h2
    obtain ⟨xe, xi, xv, xw⟩ := x
    unfold uentry
    have e1 : S.ids[d]? = some (S.ids.getD d 0) := by simp [List.getD, List.getElem?_eq_getElem h1]
    have e2 : S.vals[d]? = some (S.vals.getD d dα) := by simp [List.getD, List.getElem?_eq_getElem h2]
    rw [e1, e2]
    by_cases hb : big (S.vals.getD d dα) = true
    · rw [if_pos hb, List.mem_singleton]
      simp only [Prod.mk.injEq, Option.some.injEq]
      constructor
      · rintro ⟨rfl, rfl, rfl, rfl⟩; exact ⟨rfl, rfl, rfl, hb, rfl⟩
      · rintro ⟨rfl, rfl, rfl, _, rfl⟩; exact ⟨rfl, rfl, rfl, rfl⟩
    · rw [if_neg hb]
      simp only [List.not_mem_nil, Option.some.injEq, false_iff]
      rintro ⟨_, _, rfl, h, _⟩
      exact hb h
  unfold uall
  simp only [List.mem_flatMap, List.mem_range]
  constructor
  · rintro ⟨i, hi, k, hk, hx⟩
    have ht := htp i hi k hk
    have hs : Slot S i (target S.rel i k).toNat := ⟨hi, k, hk, by omega⟩
    obtain ⟨a, b⟩ := hd _ _ hs
    exact ⟨i, _, hs, (hent _ _ a b).mp hx⟩
  · rintro ⟨i, d, hs, hx⟩
    obtain ⟨a, b⟩ := hd _ _ hs
    obtain ⟨hi, k, hk, ht⟩ := hs
    refine ⟨i, hi, k, hk, ?_⟩
    rw [ht]
    exact (hent _ _ a b).mpr hx

/-! ### multi-buffer -/

/-- what one material adds -/
def mentries (keep : Nat → β → Bool) (id : Int) (el : Nat → Nat) (vs : List β) (d : β) : List (Nat × Int × β) :=
  (List.range vs.length).flatMap fun k => if keep k (vs.getD k d) then [(el k, id, vs.getD k d)] else []

theorem mem_mentries (keep : Nat → β → Bool) (id : Int) (el : Nat → Nat) (vs : List β) (d : β) (x : Nat × Int × β) :
    x ∈ mentries keep id el vs d ↔ ∃ k, vs[k]? = some x.2.2 ∧ keep k x.2.2 = true ∧ x.1 = el k ∧ x.2.1 = id := by
  obtain ⟨e, i, v⟩ := x
  unfold mentries
  simp only [List.mem_flatMap, List.mem_range]
  constructor
  · rintro ⟨k, hk, hx⟩
    split at hx
    · rename_i hb
      rw [List.mem_singleton] at hx
      simp only [Prod.mk.injEq] at hx
      obtain ⟨rfl, rfl, rfl⟩ := hx
      exact ⟨k, by simp [List.getD, List.getElem?_eq_getElem hk], hb, rfl, rfl⟩
    · simp at hx
  · rintro ⟨k, hk, hb, rfl, rfl⟩
    obtain ⟨hlt, _⟩ := List.getElem?_eq_some_iff.mp hk
    refine ⟨k, hlt, ?_⟩
    have : vs.getD k d = v := by simp [List.getD, hk]
    rw [this, if_pos hb]
    simp

theorem multiMat_step (big : α → Bool) (dα : α) (id : Int) (es : Option (List Int)) (vs : List α) (N : Nat) (el : Nat → Nat)
    (hel : ∀ k < vs.length, elemAt es (k : Int) = .ok (el k : Int) ∧ el k < N) (pre) (maps : List (List (Int × α))) (h : Built N pre maps) :
    ∃ maps', multiMat big id es vs maps = .ok maps' ∧ Built N (pre ++ mentries (fun _ => big) id el vs dα) maps' := by
  unfold multiMat mentries
  refine fold_steps (P := Built N) (F := fun k => if big (vs.getD k dα) then [(el k, id, vs.getD k dα)] else []) _ ?_ pre maps h
  intro s pre k hk hP
  rw [List.mem_range] at hk
  obtain ⟨h1, h2⟩ := hel k hk
  rw [O2M.rd_getD _ _ dα hk, Res.bind_ok, h1, Res.bind_ok]
  by_cases hb : big (vs.getD k dα) = true
  · rw [if_pos hb, if_pos hb]
    exact hP.step _ h2 _ _
  · rw [if_neg hb, if_neg hb]
    exact ⟨s, rfl, by simpa using hP⟩

theorem multiFieldMat_step (dβ : β) (id : Int) (es : Option (List Int)) (vf : List (List (Int × α))) (ws : List β) (N : Nat) (hN : vf.length = N)
    (el : Nat → Nat) (hel : ∀ k < ws.length, elemAt es (k : Int) = .ok (el k : Int) ∧ el k < N) (pre) (maps : List (List (Int × β)))
    (h : Built N pre maps) :
    ∃ maps', multiFieldMat id es vf ws maps = .ok maps' ∧
      Built N (pre ++ mentries (fun k _ => (iget (vf.getD (el k) []) id).isSome) id el ws dβ) maps' := by
  unfold multiFieldMat mentries
  refine fold_steps (P := Built N) (F := fun k => if (iget (vf.getD (el k) []) id).isSome then [(el k, id, ws.getD k dβ)] else []) _ ?_ pre maps h
  intro s pre k hk hP
  rw [List.mem_range] at hk
  obtain ⟨h1, h2⟩ := hel k hk
  rw [h1, Res.bind_ok, O2M.rd_getD vf (el k) [] (by omega), Res.bind_ok]
  by_cases hb : (iget (vf.getD (el k) []) id).isSome = true
  · rw [if_pos hb, if_pos hb, O2M.rd_getD _ _ dβ hk, Res.bind_ok]
    exact hP.step _ h2 _ _
  · rw [if_neg hb, if_neg hb]
    exact ⟨s, rfl, by simpa using hP⟩

theorem multiVfs_spec (big : α → Bool) (dα : α) (mm : List (Str × Int)) (eids : Option (List (Str × List Int))) (N : Nat) (num : Str → Int)
    (el : Str → Nat → Nat) : ∀ (vfs : List (Str × List α)),
    (∀ n vs, (n, vs) ∈ vfs → named mm n = .ok (num n) ∧ ∃ es, eidsOf eids n = .ok es ∧
      ∀ k < vs.length, elemAt es (k : Int) = .ok (el n k : Int) ∧ el n k < N) →
    ∀ pre maps, Built N pre maps → ∃ maps', multiVfs big mm eids vfs maps = .ok maps' ∧
      Built N (pre ++ vfs.flatMap fun x => mentries (fun _ => big) (num x.1) (el x.1) x.2 dα) maps'
  | [], _, pre, maps, h => ⟨maps, rfl, by simpa using h⟩
  | (n, vs) :: vfs, hall, pre, maps, h => by
    obtain ⟨h1, es, h2, h3⟩ := hall n vs List.mem_cons_self
    obtain ⟨m1, h4, h5⟩ := multiMat_step big dα (num n) es vs N (el n) h3 pre maps h
    obtain ⟨m2, h6, h7⟩ := multiVfs_spec big dα mm eids N num el vfs (fun n vs hm => hall n vs (List.mem_cons_of_mem _ hm)) _ m1 h5
    refine ⟨m2, ?_, ?_⟩
    · unfold multiVfs
      rw [h1, Res.bind_ok, h2, Res.bind_ok, h4, Res.bind_ok]
      exact h6
    · rw [List.flatMap_cons, ← List.append_assoc]
      exact h7

theorem multiFvs_spec (dβ : β) (mm : List (Str × Int)) (eids : Option (List (Str × List Int))) (vf : List (List (Int × α))) (N : Nat) (hN : vf.length = N)
    (num : Str → Int) (el : Str → Nat → Nat) : ∀ (fvs : List (Str × List β)),
    (∀ n ws, (n, ws) ∈ fvs → named mm n = .ok (num n) ∧ ∃ es, eidsOf eids n = .ok es ∧
      ∀ k < ws.length, elemAt es (k : Int) = .ok (el n k : Int) ∧ el n k < N) →
    ∀ pre maps, Built N pre maps → ∃ maps', multiFvs mm eids vf fvs maps = .ok maps' ∧
      Built N (pre ++ fvs.flatMap fun x => mentries (fun k _ => (iget (vf.getD (el x.1 k) []) (num x.1)).isSome) (num x.1) (el x.1) x.2 dβ) maps'
  | [], _, pre, maps, h => ⟨maps, rfl, by simpa using h⟩
  | (n, ws) :: fvs, hall, pre, maps, h => by
    obtain ⟨h1, es, h2, h3⟩ := hall n ws List.mem_cons_self
    obtain ⟨m1, h4, h5⟩ := multiFieldMat_step dβ (num n) es vf ws N hN (el n) h3 pre maps h
    obtain ⟨m2, h6, h7⟩ := multiFvs_spec dβ mm eids vf N hN num el fvs (fun n ws hm => hall n ws (List.mem_cons_of_mem _ hm)) _ m1 h5
    refine ⟨m2, ?_, ?_⟩
    · unfold multiFvs
      rw [h1, Res.bind_ok, h2, Res.bind_ok, h4, Res.bind_ok]
      exact h6
    · rw [List.flatMap_cons, ← List.append_assoc]
      exact h7

end Conduit.Matset
