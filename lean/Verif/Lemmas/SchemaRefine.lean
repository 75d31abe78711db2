import Verif.Lemmas.SchemaRaw
namespace Conduit
open Spec
namespace RSchema

theorem zip_set {α β : Type} {o : List α} {c : List β} {i : Nat} {k : α} {y : β} (h : o[i]? = some k) :
    (o.zip c).set i (k, y) = o.zip (c.set i y) := by
  apply List.ext_getElem?
  intro j
  rw [List.getElem?_set]
  by_cases hij : i = j
  · subst hij
    simp only [if_true]
    by_cases hl : i < (o.zip c).length
    · rw [if_pos hl]
      symm; rw [List.getElem?_zip_eq_some]
      refine ⟨h, ?_⟩
      rw [List.getElem?_set_self]
      simp at hl; omega
    · rw [if_neg hl]; symm; rw [List.getElem?_eq_none_iff]; simpa using hl
  · rw [if_neg hij]
    simp only [List.zip, List.getElem?_zipWith, List.getElem?_set_ne hij]

theorem zip_get {α β : Type} {o : List α} {c : List β} (hl : o.length = c.length) {i : Nat} {x : β}
    (hx : c[i]? = some x) : ∃ k, o[i]? = some k ∧ (o.zip c)[i]? = some (k, x) := by
  have : i < o.length := hl ▸ (List.getElem?_eq_some_iff.1 hx).1
  refine ⟨o[i], by simp [this], ?_⟩
  rw [List.getElem?_zip_eq_some]
  exact ⟨by simp [this], hx⟩

theorem zip_none {α β : Type} {o : List α} {c : List β} {i : Nat}
    (hx : c[i]? = none) : (o.zip c)[i]? = none := by
  rw [List.getElem?_eq_none_iff] at *; simp; omega

theorem map_get {c : List RSchema} (i : Nat) : (abss c)[i]? = (c[i]?).map abs := by
  rw [abss_eq, List.getElem?_map]

theorem abss_length (c : List RSchema) : (abss c).length = c.length := by simp [abss_eq]

theorem WF_getAt : ∀ (r : RSchema) (a : List Nat) (s : RSchema), WF r → getAt r a = some s → WF s
  | r, [], s, h, hg => by simp [getAt] at hg; subst hg; exact h
  | .leaf _, _ :: _, _, _, hg => by simp [getAt] at hg
  | .object m o c, i :: a, s, h, hg => by
    rw [getAt] at hg
    cases hc : c[i]? with
    | none => simp [hc] at hg
    | some ch =>
      simp only [hc] at hg
      exact WF_getAt ch a s ((WFs_iff c).1 h.2 ch (List.mem_of_getElem? hc)) hg
  | .list c, i :: a, s, h, hg => by
    rw [getAt] at hg
    cases hc : c[i]? with
    | none => simp [hc] at hg
    | some ch =>
      simp only [hc] at hg
      exact WF_getAt ch a s ((WFs_iff c).1 h ch (List.mem_of_getElem? hc)) hg
termination_by _ a => a.length

theorem abs_getAt : ∀ (r : RSchema) (a : List Nat), WF r → (abs r).get a = (getAt r a).map abs
  | r, [], h => by simp [getAt, Tree.get]
  | .leaf _, _ :: _, _ => by simp [getAt, Tree.get, abs]
  | .object m o c, i :: a, h => by
    rw [getAt, abs, Tree.get]
    have hl : o.length = (abss c).length := by rw [abss_length]; exact h.1.1
    cases hc : c[i]? with
    | none =>
      have : (abss c)[i]? = none := by rw [map_get, hc]; rfl
      rw [zip_none this]; rfl
    | some ch =>
      have : (abss c)[i]? = some (abs ch) := by rw [map_get, hc]; rfl
      obtain ⟨k, _, hz⟩ := zip_get hl this
      rw [hz]
      exact abs_getAt ch a ((WFs_iff c).1 h.2 ch (List.mem_of_getElem? hc))
  | .list c, i :: a, h => by
    rw [getAt, abs, Tree.get, map_get]
    cases hc : c[i]? with
    | none => rfl
    | some ch => exact abs_getAt ch a ((WFs_iff c).1 h ch (List.mem_of_getElem? hc))
termination_by _ a => a.length

theorem WFs_set {c : List RSchema} (h : WFs c) (i : Nat) {x : RSchema} (hx : WF x) : WFs (c.set i x) := by
  rw [WFs_iff] at *
  intro y hy
  rcases List.mem_or_eq_of_mem_set hy with hh | rfl
  · exact h y hh
  · exact hx

theorem WF_putAt : ∀ (r : RSchema) (a : List Nat) (x : RSchema), WF r → WF x → WF (putAt r a x)
  | r, [], x, h, hx => by simpa [putAt] using hx
  | .leaf _, _ :: _, _, h, _ => by simpa [putAt] using h
  | .object m o c, i :: a, x, h, hx => by
    rw [putAt]
    cases hc : c[i]? with
    | none => exact h
    | some ch =>
      simp only [WF, List.length_set]
      exact ⟨h.1, WFs_set h.2 i (WF_putAt ch a x ((WFs_iff c).1 h.2 ch (List.mem_of_getElem? hc)) hx)⟩
  | .list c, i :: a, x, h, hx => by
    rw [putAt]
    cases hc : c[i]? with
    | none => exact h
    | some ch =>
      simp only [WF]
      exact WFs_set h i (WF_putAt ch a x ((WFs_iff c).1 h ch (List.mem_of_getElem? hc)) hx)
termination_by _ a => a.length

theorem abs_putAt : ∀ (r : RSchema) (a : List Nat) (x : RSchema), WF r →
    abs (putAt r a x) = (abs r).put a (abs x)
  | r, [], x, h => by simp [putAt, Tree.put]
  | .leaf _, _ :: _, _, _ => by simp [putAt, Tree.put, abs]
  | .object m o c, i :: a, x, h => by
    rw [putAt, abs, Tree.put]
    have hl : o.length = (abss c).length := by rw [abss_length]; exact h.1.1
    cases hc : c[i]? with
    | none =>
      have : (abss c)[i]? = none := by rw [map_get, hc]; rfl
      rw [zip_none this]; rfl
    | some ch =>
      have : (abss c)[i]? = some (abs ch) := by rw [map_get, hc]; rfl
      obtain ⟨k, hk, hz⟩ := zip_get hl this
      rw [hz]
      simp only [abs, abss_eq, List.map_set]
      rw [zip_set hk, abs_putAt ch a x ((WFs_iff c).1 h.2 ch (List.mem_of_getElem? hc))]
  | .list c, i :: a, x, h => by
    rw [putAt, abs, Tree.put, map_get]
    cases hc : c[i]? with
    | none => rfl
    | some ch =>
      simp only [abs, abss_eq, List.map_set, Option.map_some]
      rw [abs_putAt ch a x ((WFs_iff c).1 h ch (List.mem_of_getElem? hc))]
termination_by _ a => a.length

theorem getAt_putAt : ∀ (r : RSchema) (a : List Nat) (x s : RSchema), getAt r a = some s →
    getAt (putAt r a x) a = some x
  | r, [], x, s, _ => by simp [putAt, getAt]
  | .leaf _, _ :: _, _, _, hg => by simp [getAt] at hg
  | .object m o c, i :: a, x, s, hg => by
    rw [getAt] at hg
    cases hc : c[i]? with
    | none => simp [hc] at hg
    | some ch =>
      simp only [hc] at hg
      rw [putAt]; simp only [hc]
      rw [getAt, List.getElem?_set_self (List.getElem?_eq_some_iff.1 hc).1]
      exact getAt_putAt ch a x s hg
  | .list c, i :: a, x, s, hg => by
    rw [getAt] at hg
    cases hc : c[i]? with
    | none => simp [hc] at hg
    | some ch =>
      simp only [hc] at hg
      rw [putAt]; simp only [hc]
      rw [getAt, List.getElem?_set_self (List.getElem?_eq_some_iff.1 hc).1]
      exact getAt_putAt ch a x s hg
termination_by _ a => a.length

theorem getAt_append : ∀ (r : RSchema) (a b : List Nat),
    getAt r (a ++ b) = (getAt r a).bind (fun s => getAt s b)
  | r, [], b => by simp [getAt]
  | .leaf _, _ :: _, _ => by simp [getAt]
  | .object m o c, i :: a, b => by
    rw [List.cons_append, getAt, getAt]
    cases hc : c[i]? with
    | none => rfl
    | some ch => exact getAt_append ch a b
  | .list c, i :: a, b => by
    rw [List.cons_append, getAt, getAt]
    cases hc : c[i]? with
    | none => rfl
    | some ch => exact getAt_append ch a b
termination_by _ a => a.length

/-- an address below an existing node survives changing that node -/
theorem getAt_dropLast_put (r : RSchema) (a : List Nat) (x s : RSchema) (hg : getAt r a = some s) :
    ∃ p, getAt (putAt r a x) a.dropLast = some p := by
  by_cases ha : a = []
  · subst ha; simp [getAt]
  · have h1 := getAt_putAt r a x s hg
    rw [← List.dropLast_concat_getLast ha, getAt_append] at h1
    cases h2 : getAt (putAt r a x) a.dropLast with
    | none => simp [ List.dropLast_concat_getLast ha, h2] at h1
    | some p => exact ⟨p, rfl⟩

/-- a model outcome agrees with the specification's outcome -/
def Agree : Res RSchema → Option Tree → Prop
  | .ok s, some t => WF s ∧ abs s = t
  | .error, none => True
  | _, _ => False

def AgreeA : Res (RSchema × List Nat) → Option (Tree × List Nat) → Prop
  | .ok s, some t => WF s.1 ∧ abs s.1 = t.1 ∧ s.2 = t.2 ∧ (∃ x, getAt s.1 s.2 = some x)
  | .error, none => True
  | _, _ => False

theorem WF_empty : WF empty := by simp [WF, empty]

theorem keys_zip {m o c} (h : WF (.object m o c)) : (o.zip (abss c)).map (·.1) = o := by
  have hl : o.length = (abss c).length := by rw [abss_length]; exact h.1.1
  rw [List.map_fst_zip (by omega)]

theorem WF_initObject {s : RSchema} (h : WF s) : WF s.initObject := by
  cases s with
  | object m o c => exact h
  | leaf d => exact ⟨ObjOK.nil, trivial⟩
  | list c => exact ⟨ObjOK.nil, trivial⟩

theorem abs_initObject (s : RSchema) : abs s.initObject = .obj (abs s).entries := by
  cases s <;> simp [initObject, abs, Tree.entries, abss]

theorem initObject_obj (s : RSchema) : ∃ m o c, s.initObject = .object m o c := by
  cases s <;> simp [initObject]

theorem push_agree {m o c} (h : WF (.object m o c)) (n : Str) (hn : n ∉ o) :
    WF (pushChild (.object m o c) n) ∧
    abs (pushChild (.object m o c) n) = .obj (o.zip (abss c) ++ [(n, Tree.empty)]) := by
  refine ⟨?_, ?_⟩
  · simp only [pushChild, WF, List.length_append, List.length_cons, List.length_nil]
    refine ⟨ObjOK.push h.1 n hn, ?_⟩
    rw [WFs_iff]; intro x hx
    simp only [List.mem_append, List.mem_singleton] at hx
    rcases hx with hx | rfl
    · exact (WFs_iff c).1 h.2 x hx
    · exact WF_empty
  · have hl : o.length = c.length := h.1.1
    simp only [pushChild, abs, abss_eq, List.map_append, List.map_cons, List.map_nil]
    rw [List.zip_append (by simpa using hl)]
    rfl

theorem addChild_agree {s : RSchema} (h : WF s) (n : Str) :
    Agree (s.addChild n) (some ((abs s).addChild n)) := by
  unfold addChild
  cases s with
  | leaf d =>
    simp only [hasChild, initObject, Bool.false_eq_true, if_false, Agree]
    have := push_agree (m := []) (o := []) (c := []) ⟨ObjOK.nil, trivial⟩ n (by simp)
    refine ⟨this.1, ?_⟩
    rw [this.2]; simp [Tree.addChild, abs, Tree.entries]
  | list c =>
    simp only [hasChild, initObject, Bool.false_eq_true, if_false, Agree]
    have := push_agree (m := []) (o := []) (c := []) ⟨ObjOK.nil, trivial⟩ n (by simp)
    refine ⟨this.1, ?_⟩
    rw [this.2]; simp [Tree.addChild, abs, Tree.entries]
  | object m o c =>
    simp only [hasChild, h.1.isSome, decide_eq_true_eq]
    have hk := keys_zip h
    by_cases hn : n ∈ o
    · simp only [hn, if_true, Agree]
      refine ⟨h, ?_⟩
      simp only [abs, Tree.addChild, Tree.entries, hk, hn, if_true]
    · simp only [hn, if_false, Agree]
      have := push_agree h n hn
      refine ⟨this.1, ?_⟩
      simp only [initObject]
      rw [this.2]
      simp only [abs, Tree.addChild, Tree.entries, hk, hn, if_false]

theorem append_agree {s : RSchema} (h : WF s) : WF s.append ∧ abs s.append = (abs s).append := by
  cases s with
  | leaf d => simp [append, initList, WF, WFs, WF_empty, abs, Tree.append, abss]; rfl
  | object m o c => simp [append, initList, WF, WFs, WF_empty, abs, Tree.append, abss]; rfl
  | list c =>
    simp only [append, initList, WF, abs, Tree.append, abss_eq, List.map_append, List.map_cons, List.map_nil]
    refine ⟨?_, rfl⟩
    rw [WFs_iff]; intro x hx
    simp only [List.mem_append, List.mem_singleton] at hx
    rcases hx with hx | rfl
    · exact (WFs_iff c).1 h x hx
    · exact WF_empty

theorem map_eraseIdx {α β : Type} (f : α → β) : ∀ (l : List α) (i : Nat), (l.eraseIdx i).map f = (l.map f).eraseIdx i
  | [], _ => by simp
  | _ :: _, 0 => by simp
  | _ :: l, i + 1 => by simp [map_eraseIdx f l i]

theorem zip_eraseIdx {α β : Type} : ∀ (o : List α) (c : List β) (i : Nat),
    (o.zip c).eraseIdx i = (o.eraseIdx i).zip (c.eraseIdx i)
  | [], c, i => by simp
  | _ :: _, [], i => by simp
  | _ :: _, _ :: _, 0 => by simp
  | _ :: o, _ :: c, i + 1 => by simp [zip_eraseIdx o c i]

theorem WFs_eraseIdx {c : List RSchema} (h : WFs c) (i : Nat) : WFs (c.eraseIdx i) := by
  rw [WFs_iff] at *
  exact fun x hx => h x ((List.eraseIdx_sublist c i).mem hx)

theorem obj_remove_agree {m o c} (h : WF (.object m o c)) (i : Nat) (k : Str) (hk : o[i]? = some k) :
    WF (.object (merase k ((o.drop i).foldl mdecr m)) (o.eraseIdx i) (c.eraseIdx i)) ∧
    abs (.object (merase k ((o.drop i).foldl mdecr m)) (o.eraseIdx i) (c.eraseIdx i)) =
      .obj ((o.zip (abss c)).eraseIdx i) := by
  have hl : o.length = c.length := h.1.1
  have hlt := (List.getElem?_eq_some_iff.1 hk).1
  refine ⟨⟨?_, WFs_eraseIdx h.2 i⟩, ?_⟩
  · rw [List.length_eraseIdx, if_pos (by omega)]; exact h.1.removeAt i k hk
  · simp only [abs, abss_eq, zip_eraseIdx, map_eraseIdx]

theorem removeIdx_agree {s : RSchema} (h : WF s) (i : Int) :
    Agree (s.removeIdx i) ((abs s).removeIdx i) := by
  cases s with
  | leaf d => simp [removeIdx, abs, Tree.removeIdx, Agree]
  | list c =>
    simp only [removeIdx, abs, Tree.removeIdx, abss_length]
    by_cases hi : i < 0 ∨ i.toNat ≥ c.length
    · rw [if_pos hi, if_neg (by omega)]; trivial
    · rw [if_neg hi, if_pos (by omega)]
      refine ⟨WFs_eraseIdx h _, ?_⟩
      simp [abs, abss_eq, map_eraseIdx]
  | object m o c =>
    have hl : o.length = c.length := h.1.1
    have hlz : (o.zip (abss c)).length = c.length := by simp [abss_length, hl]
    simp only [removeIdx, abs, Tree.removeIdx, hlz]
    by_cases hi : i < 0 ∨ i.toNat ≥ c.length
    · rw [if_pos hi, if_neg (by omega)]; trivial
    · rw [if_neg hi, if_pos (by omega)]
      have hlt : i.toNat < o.length := by omega
      have : o[i.toNat]? = some o[i.toNat] := by simp [hlt]
      rw [this]
      exact obj_remove_agree h _ _ this

theorem filter_ne_zip : ∀ (o : List Str) (c : List Tree) (i : Nat) (n : Str), o.length = c.length → o.Nodup →
    o[i]? = some n → (o.zip c).filter (fun e => e.1 != n) = (o.zip c).eraseIdx i
  | [], _, _, _, _, _, hi => by simp at hi
  | _ :: _, [], _, _, hl, _, _ => by simp at hl
  | a :: o, t :: c, 0, n, hl, hnd, hi => by
    simp only [List.getElem?_cons_zero, Option.some.injEq] at hi
    subst hi
    rw [List.nodup_cons] at hnd
    simp only [List.zip_cons_cons, List.filter_cons, bne_self_eq_false, Bool.false_eq_true, if_false,
      List.eraseIdx_cons_zero]
    rw [List.filter_eq_self]
    rintro ⟨x, y⟩ hx
    have := (List.of_mem_zip hx).1
    simp only [bne_iff_ne]
    rintro rfl; exact hnd.1 this
  | a :: o, t :: c, i + 1, n, hl, hnd, hi => by
    rw [List.nodup_cons] at hnd
    simp only [List.getElem?_cons_succ] at hi
    have hne : a ≠ n := by rintro rfl; exact hnd.1 (List.mem_of_getElem? hi)
    have : (a != n) = true := by simpa using hne
    simp only [List.zip_cons_cons, List.filter_cons, this, if_true, List.eraseIdx_cons_succ]
    rw [filter_ne_zip o c i n (by simpa using hl) hnd.2 hi]

theorem removeChild_agree {s : RSchema} (h : WF s) (n : Str) :
    Agree (s.removeChild n) ((abs s).removeChild n) := by
  cases s with
  | leaf d => simp [removeChild, abs, Tree.removeChild, Agree]
  | list c => simp [removeChild, abs, Tree.removeChild, Agree]
  | object m o c =>
    have hl : o.length = c.length := h.1.1
    simp only [removeChild, abs, Tree.removeChild, keys_zip h]
    have his := h.1.isSome n
    cases hf : mfind n m with
    | none =>
      rw [hf] at his; simp at his
      rw [if_neg his]; trivial
    | some i =>
      obtain ⟨h0, hi⟩ := (h.1.2.2 n i).1 hf
      have hlt := (List.getElem?_eq_some_iff.1 hi).1
      rw [if_pos (List.mem_of_getElem? hi)]
      simp only
      rw [if_neg (by omega)]
      have := obj_remove_agree h _ _ hi
      refine ⟨this.1, ?_⟩
      rw [this.2, filter_ne_zip o _ _ n (by rw [abss_length]; exact hl) h.1.2.1 hi]

theorem rename_zip : ∀ (o : List Str) (c : List Tree) (i : Nat) (n new : Str), o.Nodup →
    o[i]? = some n → (o.zip c).map (fun e => if e.1 = n then (new, e.2) else e) = (o.set i new).zip c
  | [], _, _, _, _, _, hi => by simp at hi
  | _ :: _, [], _, _, _, _, _ => by simp
  | a :: o, t :: c, 0, n, new, hnd, hi => by
    simp only [List.getElem?_cons_zero, Option.some.injEq] at hi
    subst hi
    rw [List.nodup_cons] at hnd
    simp only [List.zip_cons_cons, List.map_cons, if_true, List.set_cons_zero, List.cons.injEq, true_and]
    conv => rhs; rw [← List.map_id (o.zip c)]
    apply List.map_congr_left
    rintro ⟨x, y⟩ hx
    have := (List.of_mem_zip hx).1
    have hne : x ≠ a := by rintro rfl; exact hnd.1 this
    simp [hne]
  | a :: o, t :: c, i + 1, n, new, hnd, hi => by
    rw [List.nodup_cons] at hnd
    simp only [List.getElem?_cons_succ] at hi
    have hne : a ≠ n := by rintro rfl; exact hnd.1 (List.mem_of_getElem? hi)
    simp only [List.zip_cons_cons, List.map_cons, hne, if_false, List.set_cons_succ, List.cons.injEq, true_and]
    exact rename_zip o c i n new hnd.2 hi

theorem renameChild_agree {s : RSchema} (h : WF s) (cur new : Str) :
    Agree (s.renameChild cur new) ((abs s).renameChild cur new) := by
  cases s with
  | leaf d => simp [renameChild, abs, Tree.renameChild, Agree]
  | list c => simp [renameChild, abs, Tree.renameChild, Agree]
  | object m o c =>
    simp only [renameChild, hasChild, abs, Tree.renameChild, keys_zip h, h.1.isSome]
    by_cases hc : cur ∈ o
    · by_cases hn : new ∈ o
      · simp [hc, hn, Agree]
      · simp only [hc, hn, decide_true, Bool.not_true, decide_false, Bool.false_eq_true, if_false,
          not_false_eq_true, and_self, if_true]
        have hs := h.1.isSome cur
        rw [decide_eq_true hc] at hs
        obtain ⟨i, hi⟩ := Option.isSome_iff_exists.1 hs
        obtain ⟨h0, hio⟩ := (h.1.2.2 cur i).1 hi
        have hlt := (List.getElem?_eq_some_iff.1 hio).1
        simp only [hi, Option.getD_some]
        rw [if_neg (by omega)]
        have := h.1.rename cur new i.toNat hio hn
        rw [Int.toNat_of_nonneg h0] at this
        refine ⟨⟨this, h.2⟩, ?_⟩
        simp only [abs]
        rw [rename_zip o _ _ cur new h.1.2.1 hio]
    · simp [hc, Agree]

theorem setDtype_agree (s : RSchema) (d : DataType) :
    WF (s.setDtype d) ∧ abs (s.setDtype d) = Tree.setDtype d := by
  unfold setDtype Tree.setDtype
  cases hd : d.id <;> simp [WF, WFs, abs, abss, ObjOK.nil, hd]

theorem pos_zip {m o c} (h : WF (.object m o c)) (n : Str) :
    Tree.posOf (o.zip (abss c)) n = o.findIdx? (· == n) := by
  unfold Tree.posOf
  have hk := keys_zip h
  conv => rhs; rw [← hk]
  rw [List.findIdx?_map]; rfl

theorem removePath_agree (n : Nat) : ∀ {s : RSchema} (p : Str), p.length ≤ n → WF s →
    Agree (s.removePath p) ((abs s).removeNames (Tree.names p)) := by
  induction n with
  | zero =>
    intro s p hp h
    have : p = [] := by cases p <;> simp_all
    subst this
    rw [names_eq]
    simp only [show splitPath [] = ([], []) from rfl, if_true, Tree.removeNames]
    have := removeChild_agree h []
    cases s <;> rw [removePath] <;> simp_all [show splitPath [] = ([], []) from rfl, abs, Tree.removeChild, Agree]
  | succ n ih =>
    intro s p hp h
    rw [names_eq]
    by_cases hn : (splitPath p).2 = []
    · simp only [hn, if_true, Tree.removeNames]
      have := removeChild_agree h (splitPath p).1
      cases s <;> rw [removePath] <;> simp_all [abs, Tree.removeChild, Agree]
    · simp only [hn, if_false]
      have hne : Tree.names (splitPath p).2 ≠ [] := by
        rw [names_eq]; split <;> simp
      obtain ⟨x, xs, hx⟩ := List.exists_cons_of_ne_nil hne
      have hlt := split_next_lt hn
      cases s with
      | leaf d => rw [removePath, hx] <;> simp [abs, Tree.removeNames, Agree]
      | list d => rw [removePath, hx] <;> simp [abs, Tree.removeNames, Agree]
      | object m o c =>
        rw [removePath, hx]; simp only [abs, Tree.removeNames, hn, dif_neg, not_false_eq_true, pos_zip h, h.1.find]
        have hl : o.length = (abss c).length := by rw [abss_length]; exact h.1.1
        cases hf : o.findIdx? (· == (splitPath p).1) with
        | none => simp [Agree]
        | some i =>
          obtain ⟨hi, hik, _⟩ := List.findIdx?_eq_some_iff_getElem.1 hf
          simp only [beq_iff_eq] at hik
          have hic : i < c.length := by rw [← abss_length, ← hl]; exact hi
          have hci : c[i]? = some c[i] := by simp [hic]
          have hai : (abss c)[i]? = some (abs c[i]) := by rw [map_get, hci]; rfl
          obtain ⟨k, hk, hz⟩ := zip_get hl hai
          have hkk : k = (splitPath p).1 := by
            have : o[i]? = some o[i] := by simp [hi]
            rw [this] at hk; rw [← hik]; exact (Option.some.inj hk).symm
          subst hkk
          have hWc := (WFs_iff c).1 h.2 c[i] (List.getElem_mem _)
          have := ih (s := c[i]) (splitPath p).2 (by omega) hWc
          simp only [Option.map_some, Int.toNat_natCast, hci, hz]
          rw [hx] at this
          rw [if_neg (by omega)]
          revert this
          cases removePath c[i] (splitPath p).2 <;> cases (abs c[i]).removeNames (x :: xs) <;>
            simp only [Agree, imp_self]
          rintro ⟨hw, ha⟩
          refine ⟨⟨by simpa using h.1, WFs_set h.2 i hw⟩, ?_⟩
          simp only [abs, abss_eq, List.map_set]
          rw [ha, ← zip_set hk, ← abss_eq]

theorem slash_not_mem_curr (p : Str) : '/' ∉ (splitPath p).1 := by
  by_cases h : '/' ∈ p
  · obtain ⟨a, b, rfl, ha⟩ := exists_first h
    unfold splitPath; rw [splitString_append ha]; exact ha
  · unfold splitPath; rw [splitString_not_mem h]; exact h

theorem hasPath_name {m o c} (n : Str) (hn : '/' ∉ n) :
    hasPath (.object m o c) n = .ok (mfind n m).isSome := by
  have hs : splitPath n = (n, []) := splitString_not_mem hn
  have hc : cullSlash n = n := by
    cases n with
    | nil => rfl
    | cons x n => simp only [List.mem_cons, not_or] at hn; rw [cullSlash, if_neg (fun e => hn.1 e.symm)]
  rw [hasPath]
  simp only [hc, hs]
  cases mfind n m <;> simp

/-- the state `fetch` reaches after making sure the first name exists -/
theorem ensure_agree {m o c} (h : WF (.object m o c)) (n : Str) :
    ∃ m' o' c' i, (if (mfind n m).isSome then (RSchema.object m o c) else pushChild (.object m o c) n)
        = .object m' o' c' ∧ WF (.object m' o' c') ∧
      abs (.object m' o' c') = (Tree.obj (o.zip (abss c))).addChild n ∧
      mfind n m' = some (Int.ofNat i) ∧ i < c'.length ∧
      Tree.posOf ((Tree.obj (o.zip (abss c))).addChild n).entries n = some i := by
  have key : ∀ m' o' c', WF (.object m' o' c') → n ∈ o' →
      abs (.object m' o' c') = (Tree.obj (o.zip (abss c))).addChild n →
      ∃ i, mfind n m' = some (Int.ofNat i) ∧ i < c'.length ∧
      Tree.posOf ((Tree.obj (o.zip (abss c))).addChild n).entries n = some i := by
    intro m' o' c' hw ho ha
    have hs := hw.1.isSome n
    rw [decide_eq_true ho] at hs
    have hfi := hw.1.find n
    rw [hfi] at hs
    cases hx : o'.findIdx? (· == n) with
    | none => rw [hx] at hs; simp at hs
    | some i =>
      refine ⟨i, by rw [hfi, hx]; rfl, ?_, ?_⟩
      · have := (List.findIdx?_eq_some_iff_getElem.1 hx).1; rw [hw.1.1] at this; exact this
      · rw [← ha]; simp only [abs, Tree.entries]; rw [pos_zip hw, hx]
  by_cases hm : n ∈ o
  · have ha : abs (.object m o c) = (Tree.obj (o.zip (abss c))).addChild n := by
      simp only [abs, Tree.addChild, Tree.entries, keys_zip h, hm, if_true]
    obtain ⟨i, h1, h2, h3⟩ := key m o c h hm ha
    exact ⟨m, o, c, i, by simp [h.1.isSome, hm], h, ha, h1, h2, h3⟩
  · have hp := push_agree h n hm
    simp only [pushChild] at hp
    have ha : abs (.object (mset n c.length m) (o ++ [n]) (c ++ [empty])) =
        (Tree.obj (o.zip (abss c))).addChild n := by
      rw [hp.2]; simp only [Tree.addChild, Tree.entries, keys_zip h, hm, if_false]
    obtain ⟨i, h1, h2, h3⟩ := key _ _ _ hp.1 (by simp) ha
    exact ⟨_, _, _, i, by simp [h.1.isSome, hm, pushChild], hp.1, ha, h1, h2, h3⟩

theorem fetchAt_agree (n : Nat) : ∀ (r : RSchema) (a : List Nat) (p : Str) (s : RSchema), p.length ≤ n → WF r →
    getAt r a = some s → AgreeA (fetchAt r a p) (Tree.fetchNames (abs r) a (Tree.names p)) := by
  induction n using Nat.strongRecOn with
  | ind n ih =>
    intro r a p s hp hw hg
    have hws := WF_getAt r a s hw hg
    have hga : (abs r).get a = some (abs s) := by rw [abs_getAt r a hw, hg]; rfl
    rw [fetchAt, names_eq]
    simp only [hg]
    by_cases hd : (splitPath p).1 = ['.', '.'] ∧ a ≠ []
    · rw [dif_pos hd]
      have hlt := split_dotdot_lt hd.1
      obtain ⟨q, hq⟩ := getAt_dropLast_put r a s.initObject s hg
      have hw1 := WF_putAt r a s.initObject hw (WF_initObject hws)
      have := ih (splitPath p).2.length (by omega) _ a.dropLast (splitPath p).2 q (by omega) hw1 hq
      rw [abs_putAt r a _ hw, abs_initObject] at this
      by_cases hn : (splitPath p).2 = []
      · simp only [hn, if_true, Tree.fetchNames, hd, if_true, hga] at this ⊢
        rw [names_eq] at this
        simp only [show splitPath [] = ([], []) from rfl, if_true, Tree.fetchNames] at this
        rw [if_neg (by simp)] at this
        simp only [ne_eq, hd.2, not_false_eq_true, and_self, if_true]
        cases hdd : Tree.descend ((abs r).put a (Tree.obj (abs s).entries)) a.dropLast [] with
        | none => rw [hdd] at this; exact this
        | some x => rw [hdd] at this; exact this
      · simp only [hn, if_false, Tree.fetchNames, hga]
        rw [if_pos hd, if_neg ?_]
        · exact this
        · rw [names_eq]; split <;> simp
    · rw [dif_neg hd]
      obtain ⟨m, o, c, hio⟩ := initObject_obj s
      have hwi := WF_initObject hws
      rw [hio] at hwi
      have hns := slash_not_mem_curr p
      rw [hio, hasPath_name _ hns]
      simp only
      obtain ⟨m', o', c', i, he, hw2, ha2, hf2, hi2, hpos⟩ := ensure_agree hwi (splitPath p).1
      simp only [he, childIndex, hf2]
      rw [if_neg (by simp only [Int.ofNat_eq_natCast]; omega)]
      have hae : Tree.obj (o.zip (abss c)) = Tree.obj (abs s).entries := by
        rw [← abs_initObject, hio]; rfl
      have hadd : (Tree.obj (abs s).entries).addChild (splitPath p).1 = (abs s).addChild (splitPath p).1 := by
        rfl
      rw [hae, hadd] at hpos ha2
      have hdesc : Tree.descend (abs r) a (splitPath p).1 =
          some (abs (putAt r a (.object m' o' c')), a ++ [i]) := by
        simp only [Tree.descend, hga, hpos]
        rw [abs_putAt r a _ hw, ha2]
      have hw3 := WF_putAt r a _ hw hw2
      have hg3 : ∃ x, getAt (putAt r a (.object m' o' c')) (a ++ [i]) = some x := by
        rw [getAt_append, getAt_putAt r a _ s hg]
        simp [getAt, hi2]
      by_cases hn : (splitPath p).2 = []
      · rw [dif_pos hn, if_pos hn]
        rw [Tree.fetchNames, if_neg hd, hdesc]
        simp only [Tree.fetchNames, AgreeA]
        exact ⟨hw3, trivial, rfl, hg3⟩
      · rw [dif_neg hn, if_neg hn]
        rw [Tree.fetchNames, if_neg hd, hdesc]
        have hlt := split_next_lt hn
        obtain ⟨x, hx⟩ := hg3
        exact ih (splitPath p).2.length (by omega) _ (a ++ [i]) (splitPath p).2 x (by omega) hw3 hx

theorem step_agree (r : RSchema) (a : List Nat) (op : SchemaOp) (hw : WF r) :
    Agree (step r a op) (Tree.step (abs r) a op) := by
  unfold step Tree.step
  rw [abs_getAt r a hw]
  cases hg : getAt r a with
  | none => simp [Agree]
  | some s =>
    have hws := WF_getAt r a s hw hg
    have lift : ∀ (x : Res RSchema) (y : Option Tree), Agree x y →
        Agree (x.map' (putAt r a)) (y.map ((abs r).put a)) := by
      intro x y hxy
      cases x <;> cases y <;> simp only [Agree, Res.map', Option.map] at hxy ⊢
      obtain ⟨h1, rfl⟩ := hxy
      exact ⟨WF_putAt r a _ hw h1, abs_putAt r a _ hw⟩
    have lift1 : ∀ (x : RSchema) (y : Tree), (WF x ∧ abs x = y) →
        Agree (.ok (putAt r a x)) (some ((abs r).put a y)) := by
      rintro x y ⟨h1, rfl⟩
      exact ⟨WF_putAt r a _ hw h1, abs_putAt r a _ hw⟩
    cases op with
    | addChild n => exact lift _ _ (addChild_agree hws n)
    | append => exact lift1 _ _ (append_agree hws)
    | removeIdx i => exact lift _ _ (removeIdx_agree hws i)
    | removeChild n => exact lift _ _ (removeChild_agree hws n)
    | removePath p => exact lift _ _ (removePath_agree p.length p (by omega) hws)
    | renameChild c n => exact lift _ _ (renameChild_agree hws c n)
    | setDtype d => exact lift1 _ _ (setDtype_agree s d)
    | reset => exact lift1 _ _ ⟨WF_empty, by simp [empty, abs, Tree.empty]⟩
    | fetch p =>
      have := fetchAt_agree p.length r a p s (by omega) hw hg
      simp only [Option.map_some]
      revert this
      cases fetchAt r a p <;> cases Tree.fetchNames (abs r) a (Tree.names p) <;>
        simp only [AgreeA, Agree, Res.map', Option.map, imp_self]
      rintro ⟨h1, h2, _⟩
      exact ⟨h1, h2⟩

theorem run_agree : ∀ (ops : List (List Nat × SchemaOp)) (r : RSchema), WF r →
    ∃ r', run r ops = .ok r' ∧ WF r' ∧ abs r' = Tree.run (abs r) ops
  | [], r, hw => ⟨r, rfl, hw, rfl⟩
  | (a, op) :: rest, r, hw => by
    have := step_agree r a op hw
    rw [run, Tree.run]
    cases hs : step r a op <;> cases ht : Tree.step (abs r) a op <;> rw [hs, ht] at this <;>
      simp only [Agree] at this
    · obtain ⟨h1, rfl⟩ := this
      exact run_agree rest _ h1
    · exact run_agree rest _ hw

end RSchema
end Conduit
