import Verif.Lemmas.NextHit
import Verif.Props.Variants

/-!
The engine's choice of the next surface depends only on the crossings in the order of their distances.
-/

namespace PV.Variants
open PV PV.NextHit
variable {α ν : Type} [LinearOrder α] [DecidableEq ν]

/-- The choice made from the sorted crossings and the nearest object that is crossed once. -/
def choose (c : Option (KHit ν α)) : List (KHit ν α) → Option (ν × ν × Option ν × α)
  | [] => none
  | [h] => some (h.node, h.node, none, h.t)
  | h :: z :: _ =>
    let k := match c with | some c => c.node | none => h.node
    some (h.node, k, if k = h.node then some z.node else some h.node, h.t)

theorem nextHit_choose (l : List ν) (ts : ν → List α) :
    kNextHit l ts = choose (sortedBy (·.t) (singles l ts)).head? (sortedBy (·.t) (kHits l ts)) := by
  unfold kNextHit
  rw [kContainer_eq]
  cases kHits l ts with
  | nil => rfl
  | cons x xs =>
    obtain ⟨rest, hs, hh, hl⟩ := sorted_hits x xs
    rw [hs]
    cases xs with
    | nil =>
      cases rest with
      | nil => rfl
      | cons y ys => simp at hl
    | cons y ys =>
      cases rest with
      | nil => simp at hl
      | cons z zs =>
        simp only [List.head?_cons] at hh
        simp only [← hh, choose, Option.map_some]
        cases (sortedBy (fun h : KHit ν α => h.t) (singles l ts)).head? <;> rfl

theorem mem_kHits {l : List ν} {ts : ν → List α} {h : KHit ν α} : h ∈ kHits l ts ↔ h.node ∈ l ∧ h.t ∈ ts h.node := by
  obtain ⟨v, t⟩ := h
  simp only [kHits, List.mem_flatMap, List.mem_map, KHit.mk.injEq]
  constructor
  · rintro ⟨a, ha, b, hb, rfl, rfl⟩; exact ⟨ha, hb⟩
  · rintro ⟨ha, hb⟩; exact ⟨v, ha, t, hb, rfl, rfl⟩

theorem mem_singles {l : List ν} {ts : ν → List α} {h : KHit ν α} :
    h ∈ singles l ts ↔ h.node ∈ l ∧ h.t ∈ ts h.node ∧ (ts h.node).length = 1 := by
  obtain ⟨v, t⟩ := h
  simp only [singles, List.mem_flatMap]
  constructor
  · rintro ⟨a, ha, hb⟩
    split_ifs at hb with h1
    · simp only [List.mem_map, KHit.mk.injEq] at hb
      obtain ⟨b, hb, rfl, rfl⟩ := hb
      exact ⟨ha, hb, h1⟩
    · cases hb
  · rintro ⟨ha, hb, h1⟩
    exact ⟨v, ha, by rw [if_pos h1]; simpa using hb⟩

/-- Without a tie between objects their order is of no consequence. -/
theorem nextHit_perm {l l' : List ν} {ts : ν → List α} (h : l.Perm l')
    (hu : ∀ u ∈ l, ∀ v ∈ l, ∀ t, t ∈ ts u → t ∈ ts v → u = v) : kNextHit l ts = kNextHit l' ts := by
  rw [nextHit_choose, nextHit_choose]
  congr 1
  · refine congrArg _ (sortedBy_perm (h.flatMap_right _) ?_)
    intro a ha b hb hk
    obtain ⟨a1, a2, -⟩ := mem_singles.1 ha
    obtain ⟨b1, b2, -⟩ := mem_singles.1 hb
    obtain ⟨u, t⟩ := a
    obtain ⟨v, t'⟩ := b
    have hk : t = t' := hk
    subst hk
    rw [hu u a1 v b1 t a2 b2]
  · refine sortedBy_perm (h.flatMap_right _) ?_
    intro a ha b hb hk
    obtain ⟨a1, a2⟩ := mem_kHits.1 ha
    obtain ⟨b1, b2⟩ := mem_kHits.1 hb
    obtain ⟨u, t⟩ := a
    obtain ⟨v, t'⟩ := b
    have hk : t = t' := hk
    subst hk
    rw [hu u a1 v b1 t a2 b2]

theorem sorted_le {key : KHit ν α → α} {l : List (KHit ν α)} {x : KHit ν α} {r : List (KHit ν α)}
    (h : sortedBy key l = x :: r) : ∀ y ∈ l, key x ≤ key y := by
  intro y hy
  have hp := pairwise_sortedBy key l
  rw [← mem_sortedBy key, h] at hy
  rw [h] at hp
  rcases List.mem_cons.1 hy with rfl | hy
  · exact le_rfl
  · exact (List.pairwise_cons.1 hp).1 y hy

/-- Two crossings of objects in `l` are nearer than `x`. -/
def Behind (l : List ν) (ts : ν → List α) (x : α) : Prop :=
  ∃ a ∈ kHits l ts, ∃ b ∈ kHits l ts, a ≠ b ∧ a.t < x ∧ b.t < x

/-- The nearest surface belongs to an object of `l` that the ray is not in, it is nearer than `x`, and some
object is crossed once. -/
def Entering (l : List ν) (ts : ν → List α) (x : α) : Prop :=
  (∃ v ∈ l, (ts v).length = 1) ∧ ∃ h ∈ kHits l ts, (ts h.node).length ≠ 1 ∧
    (∀ z ∈ kHits l ts, z.node ≠ h.node → h.t < z.t) ∧ h.t < x

theorem nextHit_drop {l : List ν} {ts : ν → List α} (p : ν → Bool)
    (h1 : ∀ w ∈ l, p w = false → (ts w).length ≠ 1)
    (h2 : ∀ w ∈ l, p w = false → (∀ x ∈ ts w, Behind (l.filter p) ts x) ∨ ∀ x ∈ ts w, Entering (l.filter p) ts x) :
    kNextHit l ts = kNextHit (l.filter p) ts := by
  have hsub : ∀ x, x ∈ kHits (l.filter p) ts → x ∈ kHits l ts := fun x hx => by
    rw [mem_kHits] at hx ⊢
    exact ⟨(List.mem_filter.1 hx.1).1, hx.2⟩
  have hs : singles l ts = singles (l.filter p) ts := by
    unfold singles
    have : ∀ k : List ν, (∀ w ∈ k, p w = false → (ts w).length ≠ 1) →
        k.flatMap (fun v => if (ts v).length = 1 then (ts v).map (fun t => (⟨v, t⟩ : KHit ν α)) else []) =
          (k.filter p).flatMap fun v => if (ts v).length = 1 then (ts v).map (fun t => (⟨v, t⟩ : KHit ν α)) else [] := by
      intro k
      induction k with
      | nil => intro _; rfl
      | cons w k ih =>
        intro hk
        have ih := ih fun v hv => hk v (by simp [hv])
        rw [List.filter_cons, List.flatMap_cons, ih]
        cases hw : p w with
        | true => simp
        | false => rw [if_neg (hk w (by simp) hw)]; simp
    exact this l h1
  have hf : kHits (l.filter p) ts = (kHits l ts).filter fun x => p x.node := by
    unfold kHits
    clear hsub hs h1 h2
    induction l with
    | nil => rfl
    | cons w k ih =>
      rw [List.filter_cons, List.flatMap_cons, List.filter_append, ← ih]
      cases hw : p w with
      | true =>
        have : ((ts w).map fun t => (⟨w, t⟩ : KHit ν α)).filter (fun x => p x.node) =
            (ts w).map fun t => (⟨w, t⟩ : KHit ν α) := by
          rw [List.filter_eq_self]
          intro a ha
          obtain ⟨t, -, rfl⟩ := List.mem_map.1 ha
          exact hw
        rw [this]; simp
      | false =>
        have : ((ts w).map fun t => (⟨w, t⟩ : KHit ν α)).filter (fun x => p x.node) = [] := by
          rw [List.filter_eq_nil_iff]
          intro a ha
          obtain ⟨t, -, rfl⟩ := List.mem_map.1 ha
          simp [hw]
        rw [this]; simp
  have hfs : sortedBy (·.t) (kHits (l.filter p) ts) = (sortedBy (·.t) (kHits l ts)).filter fun x => p x.node := by
    rw [hf, filter_sortedBy]
  rw [nextHit_choose, nextHit_choose, hs]
  generalize hL : sortedBy (fun h : KHit ν α => h.t) (kHits l ts) = L at hfs
  generalize hF : sortedBy (fun h : KHit ν α => h.t) (kHits (l.filter p) ts) = F at hfs
  cases L with
  | nil => rw [hfs]; rfl
  | cons h r =>
    have hle := sorted_le hL
    have hh : h ∈ kHits l ts := by rw [← mem_sortedBy (fun h : KHit ν α => h.t), hL]; simp
    have hp : p h.node = true := by
      by_contra hc
      have hc : p h.node = false := by simpa using hc
      obtain ⟨m1, m2⟩ := mem_kHits.1 hh
      rcases h2 _ m1 hc with hb | hb
      · obtain ⟨a, ha, -, -, -, hlt, -⟩ := hb _ m2
        exact absurd hlt (not_lt.2 (hle a (hsub a ha)))
      · obtain ⟨-, a, ha, -, -, hlt⟩ := hb _ m2
        exact absurd hlt (not_lt.2 (hle a (hsub a ha)))
    rw [List.filter_cons, if_pos hp] at hfs
    cases r with
    | nil => rw [hfs]; rfl
    | cons z zs =>
      cases hz : p z.node with
      | true => rw [hfs, List.filter_cons, if_pos hz]; rfl
      | false =>
        have hzm : z ∈ kHits l ts := by rw [← mem_sortedBy (fun h : KHit ν α => h.t), hL]; simp
        have hpw := pairwise_sortedBy (fun h : KHit ν α => h.t) (kHits l ts)
        rw [hL] at hpw
        have hnear : ∀ a ∈ kHits l ts, a.t < z.t → a = h := by
          intro a ha hlt
          rw [← mem_sortedBy (fun h : KHit ν α => h.t), hL] at ha
          rcases List.mem_cons.1 ha with rfl | ha
          · rfl
          · rcases List.mem_cons.1 ha with rfl | ha
            · exact absurd hlt (lt_irrefl _)
            · exact absurd hlt (not_lt.2 ((List.pairwise_cons.1 (List.pairwise_cons.1 hpw).2).1 a ha))
        obtain ⟨m1, m2⟩ := mem_kHits.1 hzm
        rcases h2 _ m1 hz with hb | hb
        · obtain ⟨a, ha, b, hb, hne, hla, hlb⟩ := hb _ m2
          exact absurd ((hnear a (hsub a ha) hla).trans (hnear b (hsub b hb) hlb).symm) hne
        · obtain ⟨⟨v, hv, hv1⟩, a, ha, ha1, hfar, hla⟩ := hb _ m2
          have hah := hnear a (hsub a ha) hla
          subst hah
          obtain ⟨t, ht⟩ := List.length_eq_one_iff.1 hv1
          have hy : (⟨v, t⟩ : KHit ν α) ∈ kHits (l.filter p) ts := mem_kHits.2 ⟨hv, by rw [ht]; simp⟩
          have hne : (⟨v, t⟩ : KHit ν α) ≠ a := by
            intro he
            rw [← he] at ha1
            exact ha1 hv1
          have hy' : (⟨v, t⟩ : KHit ν α) ∈ F := by
            rw [← hF, mem_sortedBy]; exact hy
          have hys : (⟨v, t⟩ : KHit ν α) ∈ singles (l.filter p) ts := mem_singles.2 ⟨hv, by rw [ht]; simp, hv1⟩
          cases hc : sortedBy (fun h : KHit ν α => h.t) (singles (l.filter p) ts) with
          | nil => rw [← mem_sortedBy (fun h : KHit ν α => h.t), hc] at hys; cases hys
          | cons c cs =>
            have hcm : c ∈ singles (l.filter p) ts := by rw [← mem_sortedBy (fun h : KHit ν α => h.t), hc]; simp
            have hcn : c.node ≠ a.node := by
              intro he
              have := (mem_singles.1 hcm).2.2
              rw [he] at this
              exact ha1 this
            rw [hfs] at hy'
            rcases List.mem_cons.1 hy' with he | hy'
            · exact absurd he hne
            · rw [hfs]
              cases hr : (z :: zs).filter fun x => p x.node with
              | nil => rw [hr] at hy'; cases hy'
              | cons y ys => simp [choose, hcn]

end PV.Variants
