import Verif.Lemmas.DiffTree
namespace Conduit
open Spec Node Ieee

theorem or_ok {x y : Res Bool} (hx : ∃ r, x = .ok r) (hy : ∃ r, y = .ok r) :
    ∃ r, (do let r ← x; let s ← y; .ok (r || s) : Res Bool) = .ok r := by
  obtain ⟨r, rfl⟩ := hx
  obtain ⟨s, rfl⟩ := hy
  exact ⟨_, rfl⟩

theorem number_default (big : Bool) (b : List UInt8) : number big .default (b.map some) = some (machineNat big b) := by
  have : allSome (b.map some) = some b := by rw [allSome_eq]
  unfold number
  rw [this]
  simp [machineNat_eq]

/-- the bound of `Modest` on one element -/
def ModestElem (big : Bool) (id : TypeId) (b : List UInt8) : Prop :=
  ∀ h, halfRange id = some h → -h ≤ intValue true id.bytes (machineNat big b) ∧ intValue true id.bytes (machineNat big b) < h

theorem elemDiff_modest {c : DiffCfg} {id : TypeId} {a b : List UInt8} (h1 : id ≠ .char8Str) (h2 : id ≠ .empty)
    (h3 : id ≠ .object) (h4 : id ≠ .list) (ha : a.length = id.bytes) (hb : b.length = id.bytes)
    (ma : ModestElem c.big id a) (mb : ModestElem c.big id b) : ∃ r, elemDiff c id a b = .ok r := by
  unfold elemDiff
  cases ht : id.intTy with
  | none => cases id <;> simp [TypeId.intTy, TypeId.fmt] at *
  | some t =>
    have hna : machineNat c.big a < 256 ^ id.bytes := by rw [← ha]; exact machineNat_lt _ _
    have hnb : machineNat c.big b < 256 ^ id.bytes := by rw [← hb]; exact machineNat_lt _ _
    have : subInt t (t.cast (machineNat c.big a)) (t.cast (machineNat c.big b)) = .ok () := by
      rw [cast_pattern ht hna, cast_pattern ht hnb]
      unfold subInt
      rw [if_neg]
      rintro ⟨g1, g2, g3⟩
      apply g3
      cases id <;> simp only [TypeId.intTy, Option.some.injEq, reduceCtorEq] at ht <;> subst ht <;> simp at g1 g2 <;>
        (have ma := ma _ rfl; have mb := mb _ rfl
         simp only [isSigned, IntTy.minVal, IntTy.maxVal, IntWidth.card] at *
         norm_num at *
         omega)
    simp only
    rw [this]
    exact ⟨_, rfl⟩

theorem elemsDiff_modest {c : DiffCfg} {m : Mem} {x y : Info} {d e : DataType} (hid : d.id = e.id)
    (h1 : d.id ≠ .char8Str) (h2 : d.id ≠ .empty) (h3 : d.id ≠ .object) (h4 : d.id ≠ .list)
    {as bs : List (List UInt8)}
    (ha : ∀ (i : Nat) b, as[i]? = some b → b.length = d.id.bytes ∧ m.load x.data (d.elementIndex i) d.id.bytes = .ok b)
    (hb : ∀ (i : Nat) b, bs[i]? = some b → b.length = e.id.bytes ∧ m.load y.data (e.elementIndex i) e.id.bytes = .ok b)
    (ma : ∀ a ∈ as, ModestElem c.big d.id a) (mb : ∀ a ∈ bs, ModestElem c.big d.id a) :
    ∀ (k i : Nat), i + k = as.length → as.length ≤ bs.length → ∃ r, elemsDiff c m x d y e k i = .ok r
  | 0, i, hi, hl => ⟨_, rfl⟩
  | k + 1, i, hi, hl => by
    have hia : i < as.length := by omega
    have hib : i < bs.length := by omega
    obtain ⟨la, la'⟩ := ha i as[i] (List.getElem?_eq_getElem hia)
    obtain ⟨lb, lb'⟩ := hb i bs[i] (List.getElem?_eq_getElem hib)
    rw [← hid] at lb lb'
    rw [elemsDiff, la', Res.bind_ok, lb', Res.bind_ok]
    exact or_ok (elemDiff_modest h1 h2 h3 h4 la lb (ma _ (List.getElem_mem _)) (mb _ (List.getElem_mem _)))
      (elemsDiff_modest hid h1 h2 h3 h4 ha hb ma mb k (i + 1) (by omega) hl)

theorem modest_elems {big : Bool} {id : TypeId} {e : Endian} {as : List (List UInt8)} (h : Modest big (.leaf id e (as.map (·.map some)))) :
    ∀ a ∈ as, ModestElem big id a := by
  intro a ha r hr
  exact h r hr _ (List.mem_map_of_mem (f := fun l : List UInt8 => l.map some) ha) _ (number_default big a)

theorem arrayDiff_total {compat : Bool} {c : DiffCfg} {m : Mem} {x y : Info} {d e : DataType} (hid : d.id = e.id) (hne : d.id ≠ .empty)
    (rd : Readable m (.leaf x d)) (re : Readable m (.leaf y e)) (sd : Strings m (.leaf x d)) (se : Strings m (.leaf y e))
    (md : Modest c.big (.leaf d.id d.endian (elems m x.data d))) (me : Modest c.big (.leaf e.id e.endian (elems m y.data e))) :
    ∃ r, arrayDiff compat c m x d y e = .ok r := by
  unfold arrayDiff
  by_cases hs : d.id = .char8Str
  · rw [if_pos hs]
    exact (stringDiff_false hs (hid ▸ hs) rd re sd se c.big c.eps).1
  · rw [if_neg hs]
    obtain ⟨as, a1, a2, a3⟩ := read_elems rd hne
    obtain ⟨bs, b1, b2, b3⟩ := read_elems re (hid ▸ hne)
    have hn := rd.2.2.1
    have hm := re.2.2.1
    rw [a1] at md
    rw [b1, ← hid] at me
    have key := fun h => elemsDiff_modest (c := c) hid hs hne rd.1 rd.2.1 a3 b3 (modest_elems md) (modest_elems me) d.n.toNat 0 (by omega) h
    cases compat
    · simp only [Bool.false_eq_true, if_false]
      split
      · exact ⟨_, rfl⟩
      · exact key (by omega)
    · simp only [if_true]
      split
      · exact ⟨_, rfl⟩
      · exact key (by omega)

theorem modestE_iff {big : Bool} : ∀ {es : List (Str × Val)}, ModestE big es ↔ ∀ p ∈ es, Modest big p.2
  | [] => by simp [ModestE]
  | (k, c) :: es => by simp [ModestE, modestE_iff (es := es)]
theorem modestL_iff {big : Bool} : ∀ {es : List Val}, ModestL big es ↔ ∀ p ∈ es, Modest big p
  | [] => by simp [ModestL]
  | c :: es => by simp [ModestL, modestL_iff (es := es)]

def Calm (big : Bool) (m : Mem) (n : Node) : Prop := Comparable m n ∧ Modest big (val m n)

theorem calm_obj {big : Bool} {m : Mem} {x : Info} {es : List (Str × Node)} (h : Calm big m (.obj x es)) : ∀ p ∈ es, Calm big m p.2 := by
  obtain ⟨h1, h2⟩ := h
  simp only [val, Modest, modestE_iff, valE_eq] at h2
  exact fun p hp => ⟨(comparable_obj h1).2 p hp, h2 _ (List.mem_map_of_mem (f := fun e : Str × Node => (e.1, val m e.2)) hp)⟩

theorem calm_lst {big : Bool} {m : Mem} {x : Info} {es : List Node} (h : Calm big m (.lst x es)) : ∀ p ∈ es, Calm big m p := by
  obtain ⟨h1, h2⟩ := h
  simp only [val, Modest, modestL_iff, valL_eq] at h2
  exact fun p hp => ⟨comparable_lst h1 p hp, h2 _ (List.mem_map_of_mem hp)⟩

theorem diffThis_total (ns : List (Str × Node)) : ∀ fs : List (Str × (Node → Res Bool)),
    (∀ p ∈ fs, ∀ q ∈ ns, ∃ r, p.2 q.2 = .ok r) → ∃ r, diffThis ns fs = .ok r
  | [], _ => ⟨_, rfl⟩
  | (name, f) :: fs, h => by
    simp only [diffThis]
    apply or_ok _ (diffThis_total ns fs fun p hp => h p (List.mem_cons_of_mem _ hp))
    cases hp : posOf ns name with
    | none => exact ⟨_, rfl⟩
    | some i =>
      obtain ⟨A, d, B, rfl, rfl, h3⟩ := posOf_some hp
      simp only [List.getElem?_append_right (Nat.le_refl _), Nat.sub_self, List.getElem?_cons_zero]
      exact h (name, f) List.mem_cons_self (name, d) (by simp)

theorem diffOther_total (fs : List (Str × (Node → Res Bool))) : ∀ ns : List (Str × Node),
    (∀ p ∈ fs, ∀ q ∈ ns, ∃ r, p.2 q.2 = .ok r) → ∃ r, diffOther fs ns = .ok r
  | [], _ => ⟨_, rfl⟩
  | (name, c) :: ns, h => by
    simp only [diffOther]
    apply or_ok _ (diffOther_total fs ns fun p hp q hq => h p hp q (List.mem_cons_of_mem _ hq))
    cases hp : fs.find? (fun e => e.1 == name) with
    | none => exact ⟨_, rfl⟩
    | some e => exact h e (List.mem_of_find?_eq_some hp) (name, c) List.mem_cons_self

theorem diffZip_total : ∀ (fs : List (Node → Res Bool)) (ns : List Node),
    (∀ p ∈ fs, ∀ q ∈ ns, ∃ r, p q = .ok r) → ∃ r, diffZip fs ns = .ok r
  | [], _, _ => ⟨_, rfl⟩
  | _ :: _, [], _ => ⟨_, rfl⟩
  | f :: fs, n :: ns, h => by
    simp only [diffZip]
    exact or_ok (h f List.mem_cons_self n List.mem_cons_self)
      (diffZip_total fs ns fun p hp q hq => h p (List.mem_cons_of_mem _ hp) q (List.mem_cons_of_mem _ hq))

mutual
theorem diff_total {compat : Bool} {c : DiffCfg} {m : Mem} (hr : c.relaxint = false) : ∀ (t n : Node), Calm c.big m t → Calm c.big m n →
    ∃ r, diff compat c m t n = .ok r
  | .leaf x d, n, ht, hn => by
    rw [diff]
    unfold leafDiff
    by_cases hid : d.id = n.dtype.id
    · rw [if_neg (by simpa using hid)]
      cases n with
      | obj y ns => exact absurd hid ht.1.1.1
      | lst y ns => exact absurd hid ht.1.1.2.1
      | leaf y e =>
        have hid' : d.id = e.id := hid
        by_cases he : d.id = .empty
        · rw [if_pos he]; exact ⟨_, rfl⟩
        · rw [if_neg he]
          have h1 := ht.2
          have h2 := hn.2
          simp only [val, if_neg he, if_neg (hid' ▸ he : ¬ e.id = .empty)] at h1 h2
          exact arrayDiff_total hid' he ht.1.1 hn.1.1 ht.1.2.1 hn.1.2.1 h1 h2
    · rw [if_pos hid, hr]; exact ⟨_, rfl⟩
  | .obj x es, n, ht, hn => by
    cases n with
    | leaf y e => exact ⟨_, rfl⟩
    | lst y ns => exact ⟨_, rfl⟩
    | obj y ns =>
      have h := diffE_total (compat := compat) hr es (calm_obj ht)
      simp only [diff]
      apply or_ok (diffThis_total _ _ fun p hp q hq => h p hp q.2 (calm_obj hn q hq))
      cases compat
      · exact diffOther_total _ _ fun p hp q hq => h p hp q.2 (calm_obj hn q hq)
      · exact ⟨_, rfl⟩
  | .lst x es, n, ht, hn => by
    cases n with
    | leaf y e => exact ⟨_, rfl⟩
    | obj y ns => exact ⟨_, rfl⟩
    | lst y ns =>
      simp only [diff]
      obtain ⟨r, h⟩ := diffZip_total (diffL compat c m es) ns fun p hp q hq => diffL_total hr es (calm_lst ht) p hp q (calm_lst hn q hq)
      rw [h]; exact ⟨_, rfl⟩
theorem diffE_total {compat : Bool} {c : DiffCfg} {m : Mem} (hr : c.relaxint = false) : ∀ (es : List (Str × Node)),
    (∀ p ∈ es, Calm c.big m p.2) → ∀ f ∈ diffE compat c m es, ∀ n, Calm c.big m n → ∃ r, f.2 n = .ok r
  | [], _ => by simp [diffE]
  | (k, t) :: es, ht => by
    intro f hf n hn
    rcases List.mem_cons.1 hf with rfl | hf
    · exact diff_total hr t n (ht _ List.mem_cons_self) hn
    · exact diffE_total hr es (fun p hp => ht p (List.mem_cons_of_mem _ hp)) f hf n hn
theorem diffL_total {compat : Bool} {c : DiffCfg} {m : Mem} (hr : c.relaxint = false) : ∀ (es : List Node),
    (∀ p ∈ es, Calm c.big m p) → ∀ f ∈ diffL compat c m es, ∀ n, Calm c.big m n → ∃ r, f n = .ok r
  | [], _ => by simp [diffL]
  | t :: es, ht => by
    intro f hf n hn
    rcases List.mem_cons.1 hf with rfl | hf
    · exact diff_total hr t n (ht _ List.mem_cons_self) hn
    · exact diffL_total hr es (fun p hp => ht p (List.mem_cons_of_mem _ hp)) f hf n hn
end

end Conduit
