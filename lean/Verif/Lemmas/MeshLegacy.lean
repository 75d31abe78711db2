import Verif.Lemmas.MeshIO8
/-
The patterns for readers that do not know partition maps (C89).
-/
namespace Conduit.MeshIO
open Conduit.Mesh

/-! ### `Expand` -/

theorem findSub_some {c : Char} {t a : Str} (h : c ∉ a) (b : Str) : findSub (c :: t) (a ++ (c :: t) ++ b) = some a.length := by
  induction a with
  | nil =>
    rw [List.nil_append, List.cons_append, findSub, if_pos]
    · rfl
    · rw [List.isPrefixOf_iff_prefix]; exact ⟨b, rfl⟩
  | cons x a ih =>
    simp only [List.mem_cons, not_or] at h
    rw [List.cons_append, List.cons_append, findSub, if_neg, ih h.2]
    · rfl
    · rw [List.isPrefixOf_iff_prefix]
      rintro ⟨r, e⟩
      injection e with e _
      exact h.1 e

theorem findSub_absent {c : Char} {t s : Str} (h : c ∉ s) : findSub (c :: t) s = none := by
  induction s with
  | nil => simp [findSub]
  | cons x s ih =>
    simp only [List.mem_cons, not_or] at h
    rw [findSub, if_neg, ih h.2]
    · rfl
    · rw [List.isPrefixOf_iff_prefix]
      rintro ⟨r, e⟩
      injection e with e _
      exact h.1 e

theorem findSub_other {c : Char} {t a s : Str} (h : c ∉ a) (hs : c ∉ s) (hn : ¬ t <+: s) : findSub (c :: t) (a ++ c :: s) = none := by
  induction a with
  | nil =>
    rw [List.nil_append, findSub, if_neg, findSub_absent hs]
    · rfl
    · rw [List.isPrefixOf_iff_prefix]
      rintro ⟨r, e⟩
      injection e with _ e
      exact hn ⟨r, e⟩
  | cons x a ih =>
    simp only [List.mem_cons, not_or] at h
    rw [List.cons_append, findSub, if_neg, ih h.2]
    · rfl
    · rw [List.isPrefixOf_iff_prefix]
      rintro ⟨r, e⟩
      injection e with e _
      exact h.1 e

theorem expand_none {s : Str} (h : '%' ∉ s) (i : Nat) : expand s i = s := by
  have hn : ∀ t, findSub ('%' :: t) s = none := fun t => findSub_absent h
  unfold expand
  rw [hn]
  dsimp only
  simp only [List.cons_append, hn, Option.map_none]
  rfl

/-- The number with zeros in front, to this width. -/
theorem expand_width {a b : Str} (ha : '%' ∉ a) (hb : '%' ∉ b) {w : Nat} (hw : 2 ≤ w ∧ w ≤ 9) (i : Nat) :
    expand (a ++ '%' :: '0' :: w.digitChar :: 'd' :: b) i = a ++ (List.replicate (w - (Nat.toDigits 10 i).length) '0' ++ Nat.toDigits 10 i) ++ b := by
  have h1 : findSub (chars! "%d") (a ++ '%' :: '0' :: w.digitChar :: 'd' :: b) = none := by
    refine findSub_other ha ?_ ?_
    · simp only [List.mem_cons, not_or]
      refine ⟨by decide, ?_, by decide, hb⟩
      have : ∀ w ≤ 9, '%' ≠ Nat.digitChar w := by decide
      exact this w hw.2
    · rintro ⟨r, e⟩
      injection e with e _
      exact absurd e (by decide)
  have h2 : ∀ v, findSub ('%' :: '0' :: v :: ['d']) (a ++ '%' :: '0' :: w.digitChar :: 'd' :: b) =
      if v = w.digitChar then some a.length else none := by
    intro v
    split
    · rename_i e
      subst e
      have := findSub_some (c := '%') (t := '0' :: w.digitChar :: ['d']) ha b
      simpa using this
    · rename_i e
      refine findSub_other ha ?_ ?_
      · simp only [List.mem_cons, not_or]
        refine ⟨by decide, ?_, by decide, hb⟩
        have : ∀ w ≤ 9, '%' ≠ Nat.digitChar w := by decide
        exact this w hw.2
      · rintro ⟨r, q⟩
        simp only [List.cons_append, List.cons.injEq] at q
        exact e q.2.1
  have h3 : (a ++ '%' :: '0' :: w.digitChar :: 'd' :: b).take a.length = a := by simp
  have h3' : (a ++ '%' :: '0' :: w.digitChar :: 'd' :: b).drop (a.length + 4) = b := by
    rw [List.drop_append, List.drop_eq_nil_of_le (by omega), show a.length + 4 - a.length = 4 by omega]
    rfl
  have h4 : ∀ v < 10, chars! "%0" ++ Nat.toDigits 10 v ++ chars! "d" = '%' :: '0' :: Nat.digitChar v :: ['d'] := by decide
  have h5 : ∀ v < 10, findSub (chars! "%0" ++ Nat.toDigits 10 v ++ chars! "d") (a ++ '%' :: '0' :: w.digitChar :: 'd' :: b) =
      if v = w then some a.length else none := by
    intro v hv
    rw [h4 v hv, h2]
    have : ∀ v < 10, ∀ w < 10, (Nat.digitChar v = Nat.digitChar w ↔ v = w) := by decide
    simp only [this v hv w (by omega)]
  obtain ⟨P, hP⟩ : ∃ P, a ++ '%' :: '0' :: w.digitChar :: 'd' :: b = P := ⟨_, rfl⟩
  rw [hP] at h1 h3 h3' h5 ⊢
  unfold expand
  rw [h1]
  dsimp only
  simp only [List.findSome?_cons, List.findSome?_nil, h5 2 (by omega), h5 3 (by omega), h5 4 (by omega), h5 5 (by omega), h5 6 (by omega),
    h5 7 (by omega), h5 8 (by omega), h5 9 (by omega)]
  clear h1 h2 h4 h5 hP
  obtain ⟨w1, w2⟩ := hw
  have hc : w = 2 ∨ w = 3 ∨ w = 4 ∨ w = 5 ∨ w = 6 ∨ w = 7 ∨ w = 8 ∨ w = 9 := by omega
  rcases hc with rfl | rfl | rfl | rfl | rfl | rfl | rfl | rfl <;> simp [h3, h3']

theorem expand_six {a b : Str} (ha : '%' ∉ a) (hb : '%' ∉ b) (i : Nat) : expand (a ++ chars! "%06d" ++ b) i = a ++ pad6 (i : Int) ++ b := by
  have := expand_width ha hb (w := 6) (by omega) i
  rw [pad6_nat, ← this, List.append_assoc]
  rfl

/-! ### Where the domains are -/

section
variable {F : Type}

/-- What the patterns of old say of the domains. -/
def Old (fp tp : Str) (f n : Nat) (dir : Str) (at' : Nat → Str × List Str) : Prop :=
  ∀ i < n, ∃ file tree, legacyPaths fp tp f n i = .ok (file, tree) ∧
    joinPath dir file = (at' i).1 ∧ ∀ segs, segs ≠ [] → joinPath tree (slash segs) = '/' :: slash ((at' i).2 ++ segs)

theorem legacy_file {n f i : Nat} (hi : i < n) (hf : 0 < f) :
    ∃ k, (if n = f then .ok i else if f = 1 then .ok 0 else do
      let m ← Files.domainMap n f
      Res.ofIdx m.toFile i : Res Nat) = .ok k ∧ (n = f → k = i) ∧
      (n ≠ f → ∀ m, Files.domainMap n f = .ok m → m.toFile[i]? = some k) := by
  by_cases c : n = f
  · rw [if_pos c]
    exact ⟨i, rfl, fun _ => rfl, fun h => absurd c h⟩
  · obtain ⟨m, h1, h2, -⟩ := Files.domainMap_shared n hf
    have hl : i < m.toFile.length := by rw [h2.mapped]; exact hi
    have hk := List.getElem?_eq_getElem hl
    rw [if_neg c]
    refine ⟨m.toFile[i], ?_, fun e => absurd e c, fun _ m' h' => ?_⟩
    · split
      · have := h2.inFile i _ hk
        congr 1
        omega
      · rw [h1, Res.bind_ok, Res.ofIdx, hk]
    · rw [h1] at h'
      injection h' with h'
      rw [← h', hk]

theorem patterns_old {p : Plan} {q : Patterns F} {dir base : Str} {toFile : Nat → Nat} (hok : PlanOk p) (hs : Split p.root dir base)
    (hpct : '%' ∉ p.root ∧ '%' ∉ p.protocol) (hq : patterns p = .ok q)
    (hdir : p.rootOnly = false → ∃ b, base = b ++ chars! ".root" ∧ Split p.dir dir b)
    (hto : p.rootOnly = false → p.doms ≠ p.files → ∃ m, Files.domainMap p.doms p.files = .ok m ∧ m.toFile.length = p.doms ∧
        ∀ i < p.doms, m.toFile[i]? = some (toFile i)) :
    Old q.file q.tree p.files p.doms dir (place p toFile) := by
  have hbase : '%' ∉ base := by
    rcases hs.eq with ⟨-, e⟩ | ⟨-, -, e⟩
    · rw [← e]; exact hpct.1
    · intro h
      exact hpct.1 (by rw [e]; simp [h])
  intro i hi
  obtain ⟨k, k1, k2, k3⟩ := legacy_file hi hok.files
  have hl : legacyPaths q.file q.tree p.files p.doms i = .ok (expand q.file k, endSlash (expand q.tree i)) := by
    unfold legacyPaths
    rw [k1]; rfl
  refine ⟨_, _, hl, ?_⟩
  have hdn : expand (chars! "/domain_%06d") i = '/' :: domainName i := by
    have := expand_six (a := chars! "/domain_") (b := []) (by decide) (by decide) i
    simpa [domainName] using this
  cases hr : p.rootOnly with
  | true =>
    have hfile : (rsplitPath p.root).1 = base := by unfold rsplitPath; rw [hs.rsplit]
    have hj : joinPath dir base = p.root := by simpa using hs.join []
    by_cases h1 : p.doms = 1
    · rw [patterns, if_pos hr, if_pos h1] at hq
      injection hq with hq
      subst hq
      dsimp only
      rw [hfile, expand_none hbase, hj, expand_none (by decide), tree_root]
      refine ⟨by simp [place, hr], fun segs _ => ?_⟩
      rw [join_root]
      simp [place, hr, h1]
    · rw [patterns, if_pos hr, if_neg h1] at hq
      injection hq with hq
      subst hq
      dsimp only
      have hd2 : expand (chars! "/domain_%06d/") i = '/' :: domainName i ++ ['/'] := by
        have := expand_six (a := chars! "/domain_") (b := ['/']) (by decide) (by decide) i
        simpa [domainName] using this
      have he : endSlash ('/' :: domainName i ++ ['/']) = '/' :: domainName i ++ ['/'] := by
        unfold endSlash
        rw [if_neg]
        rintro ⟨-, h⟩
        exact h (by rw [List.getLast?_append]; rfl)
      rw [hfile, expand_none hbase, hj, hd2, he]
      refine ⟨by simp [place, hr], fun segs h => ?_⟩
      rw [join_domain i h]
      simp [place, hr, h1]
  | false =>
    obtain ⟨b, hb, hsd⟩ := hdir hr
    have hb0 : (rsplitPath (rsplitString p.dir '/').1).1 = b := by
      unfold rsplitPath
      rw [hsd.rsplit]
      dsimp only
      rw [rsplitString_not_mem hsd.noSlash]
    have hbl : b.getLast? ≠ some '/' := fun q => hsd.noSlash (List.mem_of_getLast? q)
    have hbm : '%' ∉ b := fun h => hbase (by rw [hb]; simp [h])
    have hp : '%' ∉ chars! "." ++ p.protocol := by simp [hpct.2]
    by_cases c : p.doms = p.files
    · rw [patterns, if_neg (by simp [hr]), if_pos c] at hq
      injection hq with hq
      subst hq
      dsimp only
      obtain rfl := k2 c
      rw [hb0, joinFile hsd.base_ne hbl, expand_none (by decide : '%' ∉ chars! "/"), tree_root]
      have := expand_six (a := b ++ chars! "/domain_") (b := chars! "." ++ p.protocol) (by simp [hbm]) hp k
      rw [show b ++ '/' :: (chars! "domain_%06d." ++ p.protocol) = b ++ chars! "/domain_" ++ chars! "%06d" ++ (chars! "." ++ p.protocol) by simp, this]
      refine ⟨?_, fun segs _ => ?_⟩
      · rw [show b ++ chars! "/domain_" ++ pad6 (k : Int) ++ (chars! "." ++ p.protocol) = b ++ '/' :: (domainName k ++ chars! "." ++ p.protocol) by
          simp [domainName], hsd.join]
        simp [place, hr, c]
      · rw [join_root]
        simp [place, hr, c]
    · obtain ⟨m, m1, m2, m3⟩ := hto hr c
      rw [patterns, if_neg (by simp [hr]), if_neg c, m1] at hq
      injection hq with hq
      subst hq
      dsimp only
      obtain rfl : k = toFile i := Option.some.inj ((k3 c m m1).symm.trans (m3 i hi))
      rw [hb0, joinFile hsd.base_ne hbl, hdn, tree_domain]
      have := expand_six (a := b ++ chars! "/file_") (b := chars! "." ++ p.protocol) (by simp [hbm]) hp (toFile i)
      rw [show b ++ '/' :: (chars! "file_%06d." ++ p.protocol) = b ++ chars! "/file_" ++ chars! "%06d" ++ (chars! "." ++ p.protocol) by simp, this]
      refine ⟨?_, fun segs h => ?_⟩
      · rw [show b ++ chars! "/file_" ++ pad6 (toFile i : Int) ++ (chars! "." ++ p.protocol) = b ++ '/' :: (fileName (toFile i) ++ chars! "." ++ p.protocol) by
          simp [fileName], hsd.join]
        simp [place, hr, c]
      · rw [join_domain i h]
        simp [place, hr, c]

end
end Conduit.MeshIO
