import Verif.Lemmas.ActorTree
set_option autoImplicit false

/-! Invariant of the executions in which sibling names are unique, actors start normally and nobody stops an actor before
it is attached to its parent. -/
namespace Verif.ActorTree
open Verif.ActorCell

def isWatchMsg : Msg → Bool
  | .watch _ => true
  | .unwatch _ => true
  | _ => false

structure GInv (s : St) : Prop where
  ok : ∀ j < s.n, (s.act j).ok = true
  okst : ∀ j < s.n, ∀ b, .start b ∈ (s.act j).sys → b = true
  root : (s.act 0).parent = none
  rootS : (s.act 0).isOpen = true → (s.act 0).cell.started = true
  parS : ∀ j < s.n, 0 < j → ∃ p, (s.act j).parent = some p
  attP : ∀ p < s.n, ∀ ch, .attach ch ∈ (s.act p).sys → (s.act p).alive = true →
    (s.act ch.id).path = ch.path ∧ (s.act ch.id).alive = true
  chd : ∀ p < s.n, ∀ ch ∈ (s.act p).cell.children, 0 < ch.id ∧ ch.id < s.n ∧ (s.act ch.id).parent = some p ∧
    (s.act ch.id).path = ch.path ∧ (s.act ch.id).cell.hasParent = true ∧ (s.act ch.id).alive = true
  chNd : ∀ p < s.n, (s.act p).cell.children.Nodup
  pend : ∀ j < s.n, 0 < j → (s.act j).cell.hasParent = false → (s.act j).alive = true → ∀ p, (s.act j).parent = some p →
    .attach ⟨j, (s.act j).path⟩ ∈ (s.act p).sys ∧ (s.act p).alive = true ∧ (s.act j).isOpen = true ∧
    (s.act j).cell.started = false ∧ (s.act j).cell.children = [] ∧ (s.act j).cell.stopping = false ∧
    .pill ∉ (s.act j).usr ∧ ∀ m ∈ (s.act j).sys, isWatchMsg m = true
  attd : ∀ j < s.n, (s.act j).cell.hasParent = true → (s.act j).alive = true → ∀ p, (s.act j).parent = some p →
    (⟨j, (s.act j).path⟩ : Child) ∈ (s.act p).cell.children
  startd : ∀ j < s.n, (s.act j).cell.hasParent = true → (s.act j).isOpen = true →
    (s.act j).cell.started = true ∨ .start true ∈ (s.act j).sys
  dead : ∀ j < s.n, (s.act j).alive = false → (s.act j).isOpen = false
  closed : ∀ j < s.n, (s.act j).isOpen = false → (s.act j).cell.children = []
  det : ∀ p < s.n, (s.act p).isOpen = true → ∀ q, (s.act p).sys.count (.detach q) =
    (s.act p).cell.children.countP (fun ch => decide (ch.path = q) && !(s.act ch.id).isOpen)
  uniq : ∀ i < s.n, ∀ j < s.n, i ≠ j → (s.act i).alive = true → (s.act j).alive = true →
    (s.act i).parent = (s.act j).parent → (s.act j).parent ≠ none → (s.act i).path ≠ (s.act j).path
  told : ∀ p < s.n, (s.act p).told = true → (s.act p).cell.stopping = true
  pills : ∀ p < s.n, (s.act p).isOpen = true → (s.act p).told = true → ∀ ch ∈ (s.act p).cell.children,
    (s.act ch.id).isOpen = true → .pill ∈ (s.act ch.id).usr ∨ .stop ∈ (s.act ch.id).sys ∨ (s.act ch.id).told = true

/-- A step that neither closes, destroys, attaches nor creates. -/
structure Quiet (s s' : St) (i : Nat) : Prop where
  n : s'.n = s.n
  same : ∀ k, (s'.act k).isOpen = (s.act k).isOpen ∧ (s'.act k).alive = (s.act k).alive ∧
    (s'.act k).cell.hasParent = (s.act k).cell.hasParent ∧ (s'.act k).cell.children = (s.act k).cell.children ∧
    (s'.act k).parent = (s.act k).parent ∧ (s'.act k).path = (s.act k).path ∧ (s'.act k).ok = (s.act k).ok
  other : ∀ k, k ≠ i → (s'.act k).cell.started = (s.act k).cell.started ∧
    (s'.act k).cell.stopping = (s.act k).cell.stopping ∧ (s'.act k).told = (s.act k).told ∧ (s'.act k).sys = (s.act k).sys
  det : ∀ q, (s'.act i).sys.count (.detach q) = (s.act i).sys.count (.detach q)
  att : ∀ ch, .attach ch ∈ (s'.act i).sys ↔ .attach ch ∈ (s.act i).sys
  okst : ∀ b, .start b ∈ (s'.act i).sys → .start b ∈ (s.act i).sys
  start : .start true ∈ (s.act i).sys → .start true ∈ (s'.act i).sys ∨ (s'.act i).cell.started = true
  started : (s.act i).cell.started = true → (s'.act i).cell.started = true
  stop : .stop ∈ (s.act i).sys → .stop ∈ (s'.act i).sys ∨ (s'.act i).told = true
  pill : ∀ k, .pill ∈ (s.act k).usr → .pill ∈ (s'.act k).usr ∨ (k = i ∧ .stop ∈ (s'.act i).sys)
  pill' : ∀ k, .pill ∈ (s'.act k).usr → .pill ∈ (s.act k).usr ∨ (s.act k).cell.hasParent = true ∨ k = 0
  told : (s.act i).told = true → (s'.act i).told = true
  toldS : (s'.act i).told = true → (s.act i).told = true ∨
    ((s'.act i).cell.stopping = true ∧ ∀ ch ∈ (s.act i).cell.children, (s.act ch.id).isOpen = true → .pill ∈ (s'.act ch.id).usr)
  stopping : (s.act i).cell.stopping = true → (s'.act i).cell.stopping = true
  pend : 0 < i → (s.act i).cell.hasParent = false → (∀ m ∈ (s.act i).sys, isWatchMsg m = true) →
    (s.act i).cell.stopping = false → (s.act i).cell.started = false →
    (s'.act i).cell.started = false ∧ (s'.act i).cell.stopping = false ∧ ∀ m ∈ (s'.act i).sys, isWatchMsg m = true

theorem GInv_quiet {s s' : St} {i : Nat} (h : GInv s) (q : Quiet s s' i) : GInv s' := by
  have hsys : ∀ k ch, .attach ch ∈ (s'.act k).sys ↔ .attach ch ∈ (s.act k).sys := by
    intro k ch
    by_cases hk : k = i
    · subst hk; exact q.att ch
    · rw [(q.other k hk).2.2.2]
  constructor
  case ok => intro j hj; rw [(q.same j).2.2.2.2.2.2]; exact h.ok j (q.n ▸ hj)
  case okst =>
    intro j hj b hb
    by_cases hk : j = i
    · subst hk; exact h.okst j (q.n ▸ hj) b (q.okst b hb)
    · rw [(q.other j hk).2.2.2] at hb; exact h.okst j (q.n ▸ hj) b hb
  case root => rw [(q.same 0).2.2.2.2.1]; exact h.root
  case rootS =>
    intro ho
    rw [(q.same 0).1] at ho
    by_cases hk : 0 = i
    · subst hk; exact q.started (h.rootS ho)
    · rw [(q.other 0 hk).1]; exact h.rootS ho
  case parS => intro j hj h0; rw [(q.same j).2.2.2.2.1]; exact h.parS j (q.n ▸ hj) h0
  case attP =>
    intro p hp ch hch ha
    rw [(q.same p).2.1] at ha
    rw [(q.same ch.id).2.1, (q.same ch.id).2.2.2.2.2.1]
    exact h.attP p (q.n ▸ hp) ch ((hsys p ch).1 hch) ha
  case chd =>
    intro p hp ch hch
    rw [(q.same p).2.2.2.1] at hch
    obtain ⟨-, s2, s3, -, s5, s6, -⟩ := q.same ch.id
    rw [q.n, s2, s3, s5, s6]
    exact h.chd p (q.n ▸ hp) ch hch
  case chNd => intro p hp; rw [(q.same p).2.2.2.1]; exact h.chNd p (q.n ▸ hp)
  case pend =>
    intro j hj h0 hpar ha p hp
    obtain ⟨s1, s2, s3, s4, s5, s6, s7⟩ := q.same j
    rw [s3] at hpar; rw [s2] at ha; rw [s5] at hp
    obtain ⟨t1, t2, t3, t4, t5, t6, t7, t8⟩ := h.pend j (q.n ▸ hj) h0 hpar ha p hp
    have hpill : .pill ∉ (s'.act j).usr := by
      intro hx
      rcases q.pill' j hx with hx | hx | hx
      · exact t7 hx
      · rw [hpar] at hx; simp at hx
      · omega
    rw [hsys, (q.same p).2.1, s1, s4, s6]
    by_cases hk : j = i
    · subst hk
      obtain ⟨u1, u2, u3⟩ := q.pend h0 hpar t8 t6 t4
      exact ⟨t1, t2, t3, u1, t5, u2, hpill, u3⟩
    · obtain ⟨o1, o2, o3, o4⟩ := q.other j hk
      rw [o1, o2, o4]
      exact ⟨t1, t2, t3, t4, t5, t6, hpill, t8⟩
  case attd =>
    intro j hj hpar ha p hp
    obtain ⟨s1, s2, s3, s4, s5, s6, s7⟩ := q.same j
    rw [s3] at hpar; rw [s2] at ha; rw [s5] at hp
    rw [s6, (q.same p).2.2.2.1]
    exact h.attd j (q.n ▸ hj) hpar ha p hp
  case startd =>
    intro j hj hpar ho
    obtain ⟨s1, s2, s3, s4, s5, s6, s7⟩ := q.same j
    rw [s3] at hpar; rw [s1] at ho
    have := h.startd j (q.n ▸ hj) hpar ho
    by_cases hk : j = i
    · subst hk
      rcases this with h1 | h1
      · exact .inl (q.started h1)
      · exact (q.start h1).symm
    · obtain ⟨o1, o2, o3, o4⟩ := q.other j hk
      rw [o1, o4]; exact this
  case dead => intro j hj; rw [(q.same j).1, (q.same j).2.1]; exact h.dead j (q.n ▸ hj)
  case closed => intro j hj; rw [(q.same j).1, (q.same j).2.2.2.1]; exact h.closed j (q.n ▸ hj)
  case det =>
    intro p hp ho d
    rw [(q.same p).1] at ho
    have hfun : (fun ch : Child => decide (ch.path = d) && !(s'.act ch.id).isOpen) =
        fun ch : Child => decide (ch.path = d) && !(s.act ch.id).isOpen := by
      funext ch; rw [(q.same ch.id).1]
    rw [hfun, (q.same p).2.2.2.1, ← h.det p (q.n ▸ hp) ho d]
    by_cases hk : p = i
    · subst hk; exact q.det d
    · rw [(q.other p hk).2.2.2]
  case uniq =>
    intro a ha b hb hne
    obtain ⟨s1, s2, s3, s4, s5, s6, s7⟩ := q.same a
    obtain ⟨t1, t2, t3, t4, t5, t6, t7⟩ := q.same b
    rw [s2, t2, s5, t5, s6, t6]
    exact h.uniq a (q.n ▸ ha) b (q.n ▸ hb) hne
  case told =>
    intro p hp ht
    by_cases hk : p = i
    · subst hk
      rcases q.toldS ht with h1 | h1
      · exact q.stopping (h.told p (q.n ▸ hp) h1)
      · exact h1.1
    · rw [(q.other p hk).2.2.1] at ht; rw [(q.other p hk).2.1]; exact h.told p (q.n ▸ hp) ht
  case pills =>
    intro p hp ho ht ch hch hco
    rw [(q.same p).1] at ho
    rw [(q.same p).2.2.2.1] at hch
    rw [(q.same ch.id).1] at hco
    have hold : (s.act p).told = true →
        .pill ∈ (s'.act ch.id).usr ∨ .stop ∈ (s'.act ch.id).sys ∨ (s'.act ch.id).told = true := by
      intro ht
      rcases h.pills p (q.n ▸ hp) ho ht ch hch hco with h1 | h1 | h1
      · rcases q.pill ch.id h1 with h1 | ⟨hi, h1⟩
        · exact .inl h1
        · rw [hi]; exact .inr (.inl h1)
      · by_cases hk : ch.id = i
        · rw [hk] at h1 ⊢; exact .inr (q.stop h1)
        · rw [(q.other _ hk).2.2.2]; exact .inr (.inl h1)
      · by_cases hk : ch.id = i
        · rw [hk] at h1 ⊢; exact .inr (.inr (q.told h1))
        · rw [(q.other _ hk).2.2.1]; exact .inr (.inr h1)
    by_cases hk : p = i
    · subst hk
      rcases q.toldS ht with h1 | ⟨-, h1⟩
      · exact hold h1
      · exact .inl (h1 ch hch hco)
    · rw [(q.other p hk).2.2.1] at ht; exact hold ht

/-- Actor `i`, without children, closes and tells its parent. -/
structure Closes (s s' : St) (i : Nat) : Prop where
  n : s'.n = s.n
  hi : i < s.n
  io : (s.act i).isOpen = true
  ich : (s.act i).cell.children = []
  ipar : 0 < i → (s.act i).cell.hasParent = true
  ia : (s.act i).alive = true
  same : ∀ k, (s'.act k).alive = (s.act k).alive ∧
    (s'.act k).cell.hasParent = (s.act k).cell.hasParent ∧ (s'.act k).cell.children = (s.act k).cell.children ∧
    (s'.act k).parent = (s.act k).parent ∧ (s'.act k).path = (s.act k).path ∧ (s'.act k).ok = (s.act k).ok ∧
    (s'.act k).cell.stopping = (s.act k).cell.stopping ∧ ((s'.act k).told = (s.act k).told)
  opn : ∀ k, (s'.act k).isOpen = ((s.act k).isOpen && decide (k ≠ i))
  started : ∀ k, k ≠ i → (s'.act k).cell.started = (s.act k).cell.started
  pill : ∀ k, k ≠ i → (.pill ∈ (s'.act k).usr ↔ .pill ∈ (s.act k).usr)
  sys : ∀ k, k ≠ i → (s'.act k).sys =
    if (s.act k).isOpen = true ∧ (s.act i).parent = some k then (s.act k).sys ++ [.detach (s.act i).path] else (s.act k).sys
  att : ∀ ch, .attach ch ∈ (s'.act i).sys ↔ .attach ch ∈ (s.act i).sys
  okst : ∀ b, .start b ∈ (s'.act i).sys → .start b ∈ (s.act i).sys

theorem GInv_closes {s s' : St} {i : Nat} (h : GInv s) (q : Closes s s' i) : GInv s' := by
  have hmem : ∀ k m, k ≠ i → (∀ d, m ≠ .detach d) → (m ∈ (s'.act k).sys ↔ m ∈ (s.act k).sys) := by
    intro k m hk hd
    rw [q.sys k hk]
    split
    · simp [hd]
    · rfl
  have hsys : ∀ k ch, .attach ch ∈ (s'.act k).sys ↔ .attach ch ∈ (s.act k).sys := by
    intro k ch
    by_cases hk : k = i
    · subst hk; exact q.att ch
    · exact hmem k _ hk (by simp)
  constructor
  case ok => intro j hj; rw [(q.same j).2.2.2.2.2.1]; exact h.ok j (q.n ▸ hj)
  case okst =>
    intro j hj b hb
    by_cases hk : j = i
    · subst hk; exact h.okst j (q.n ▸ hj) b (q.okst b hb)
    · exact h.okst j (q.n ▸ hj) b ((hmem j _ hk (by simp)).1 hb)
  case root => rw [(q.same 0).2.2.2.1]; exact h.root
  case rootS =>
    intro ho
    rw [q.opn] at ho
    simp at ho
    rw [q.started 0 ho.2]; exact h.rootS ho.1
  case parS => intro j hj h0; rw [(q.same j).2.2.2.1]; exact h.parS j (q.n ▸ hj) h0
  case attP =>
    intro p hp ch hch ha
    rw [(q.same p).1] at ha
    rw [(q.same ch.id).1, (q.same ch.id).2.2.2.2.1]
    exact h.attP p (q.n ▸ hp) ch ((hsys p ch).1 hch) ha
  case chd =>
    intro p hp ch hch
    rw [(q.same p).2.2.1] at hch
    obtain ⟨s1, s2, s3, s4, s5, s6, s7, s8⟩ := q.same ch.id
    rw [q.n, s1, s2, s4, s5]
    exact h.chd p (q.n ▸ hp) ch hch
  case chNd => intro p hp; rw [(q.same p).2.2.1]; exact h.chNd p (q.n ▸ hp)
  case pend =>
    intro j hj h0 hpar ha p hp
    obtain ⟨s1, s2, s3, s4, s5, s6, s7, s8⟩ := q.same j
    rw [s2] at hpar; rw [s1] at ha; rw [s4] at hp
    have hji : j ≠ i := by rintro rfl; rw [q.ipar h0] at hpar; simp at hpar
    obtain ⟨t1, t2, t3, t4, t5, t6, t7, t8⟩ := h.pend j (q.n ▸ hj) h0 hpar ha p hp
    rw [hsys, (q.same p).1, q.opn, s3, s5, s7, q.started j hji, q.pill j hji]
    refine ⟨t1, t2, by simp [t3, hji], t4, t5, t6, t7, ?_⟩
    intro m hm
    rw [q.sys j hji] at hm
    split at hm
    · rename_i hc
      exfalso
      rcases Nat.eq_zero_or_pos i with hi0 | hi0
      · rw [hi0, h.root] at hc; simp at hc
      · have := h.attd i q.hi (q.ipar hi0) q.ia j hc.2
        rw [t5] at this; simp at this
    · exact t8 m hm
  case attd =>
    intro j hj hpar ha p hp
    obtain ⟨s1, s2, s3, s4, s5, s6, s7, s8⟩ := q.same j
    rw [s2] at hpar; rw [s1] at ha; rw [s4] at hp
    rw [s5, (q.same p).2.2.1]
    exact h.attd j (q.n ▸ hj) hpar ha p hp
  case startd =>
    intro j hj hpar ho
    rw [(q.same j).2.1] at hpar
    rw [q.opn] at ho
    simp at ho
    rw [q.started j ho.2, hmem j _ ho.2 (by simp)]
    exact h.startd j (q.n ▸ hj) hpar ho.1
  case dead =>
    intro j hj ha
    rw [(q.same j).1] at ha
    rw [q.opn, h.dead j (q.n ▸ hj) ha]; rfl
  case closed =>
    intro j hj ho
    rw [(q.same j).2.2.1]
    by_cases hk : j = i
    · subst hk; exact q.ich
    · rw [q.opn] at ho; simp [hk] at ho; exact h.closed j (q.n ▸ hj) ho
  case det =>
    intro p hp ho d
    rw [q.opn] at ho
    simp at ho
    have hpn : p < s.n := q.n ▸ hp
    rw [(q.same p).2.2.1, q.sys p ho.2]
    by_cases hc : (s.act i).parent = some p
    · -- the parent
      have hi0 : 0 < i := by
        rcases Nat.eq_zero_or_pos i with hi0 | hi0
        · rw [hi0, h.root] at hc; simp at hc
        · exact hi0
      have hmemi := h.attd i q.hi (q.ipar hi0) q.ia p hc
      rw [if_pos ⟨ho.1, hc⟩, List.count_append, h.det p hpn ho.1 d]
      obtain ⟨as, bs, hl⟩ := List.append_of_mem hmemi
      have hnd := h.chNd p hpn
      have hother : ∀ ch ∈ (s.act p).cell.children, ch ≠ ⟨i, (s.act i).path⟩ → ch.id ≠ i := by
        intro ch hch hne hid
        apply hne
        have := (h.chd p hpn ch hch).2.2.2.1
        rw [hid] at this
        cases ch; simp_all
      rw [hl] at hnd hother ⊢
      rw [List.nodup_append, List.nodup_cons] at hnd
      have has : ∀ ch ∈ as, (s'.act ch.id).isOpen = (s.act ch.id).isOpen := by
        intro ch hch
        have := hother ch (by simp [hch]) (hnd.2.2 ch hch _ (by simp))
        rw [q.opn]; simp [this]
      have hbs : ∀ ch ∈ bs, (s'.act ch.id).isOpen = (s.act ch.id).isOpen := by
        intro ch hch
        have := hother ch (by simp [hch]) (by rintro rfl; exact hnd.2.1.1 hch)
        rw [q.opn]; simp [this]
      have e1 : as.countP (fun ch : Child => decide (ch.path = d) && !(s'.act ch.id).isOpen) =
          as.countP (fun ch : Child => decide (ch.path = d) && !(s.act ch.id).isOpen) :=
        List.countP_congr (fun ch hch => by rw [has ch hch])
      have e2 : bs.countP (fun ch : Child => decide (ch.path = d) && !(s'.act ch.id).isOpen) =
          bs.countP (fun ch : Child => decide (ch.path = d) && !(s.act ch.id).isOpen) :=
        List.countP_congr (fun ch hch => by rw [hbs ch hch])
      simp only [List.countP_append, List.countP_cons, e1, e2]
      have ho' : (s'.act i).isOpen = false := by rw [q.opn]; simp
      simp only [ho', q.io, Bool.not_true, Bool.and_false, Bool.not_false, Bool.and_true, List.count_cons, List.count_nil]
      by_cases hd : (s.act i).path = d
      · subst hd; simp; omega
      · have : (Msg.detach (s.act i).path == Msg.detach d) = false := by simpa using hd
        simp [hd]
    · rw [if_neg (fun hx => hc hx.2), h.det p hpn ho.1 d]
      apply List.countP_congr
      intro ch hch
      have hid : ch.id ≠ i := by
        intro hid
        have := (h.chd p hpn ch hch).2.2.1
        rw [hid] at this
        exact hc this
      rw [q.opn]; simp [hid]
  case uniq =>
    intro a ha b hb hne
    obtain ⟨s1, s2, s3, s4, s5, s6, s7, s8⟩ := q.same a
    obtain ⟨t1, t2, t3, t4, t5, t6, t7, t8⟩ := q.same b
    rw [s1, t1, s4, t4, s5, t5]
    exact h.uniq a (q.n ▸ ha) b (q.n ▸ hb) hne
  case told =>
    intro p hp ht
    rw [(q.same p).2.2.2.2.2.2.2] at ht
    rw [(q.same p).2.2.2.2.2.2.1]; exact h.told p (q.n ▸ hp) ht
  case pills =>
    intro p hp ho ht ch hch hco
    rw [q.opn] at ho hco
    simp at ho hco
    rw [(q.same p).2.2.1] at hch
    rw [(q.same p).2.2.2.2.2.2.2] at ht
    rw [q.pill _ hco.2, hmem _ _ hco.2 (by simp), (q.same ch.id).2.2.2.2.2.2.2]
    exact h.pills p (q.n ▸ hp) ho.1 ht ch hch hco.1

/-- Actor `i` destroys the cells `kd`; its list of children may shrink. -/
structure Kills (s s' : St) (i : Nat) (kd : Nat → Bool) : Prop where
  n : s'.n = s.n
  same : ∀ k, (s'.act k).cell.hasParent = (s.act k).cell.hasParent ∧
    (s'.act k).parent = (s.act k).parent ∧ (s'.act k).path = (s.act k).path ∧ (s'.act k).ok = (s.act k).ok ∧
    (s'.act k).cell.stopping = (s.act k).cell.stopping ∧ (s'.act k).told = (s.act k).told ∧
    (s'.act k).cell.started = (s.act k).cell.started ∧ (s'.act k).usr = (s.act k).usr
  opn : ∀ k, (s'.act k).isOpen = ((s.act k).isOpen && !kd k)
  alive : ∀ k, (s'.act k).alive = ((s.act k).alive && !kd k)
  other : ∀ k, k ≠ i → (s'.act k).sys = (s.act k).sys ∧ (s'.act k).cell.children = (s.act k).cell.children
  sys : ∀ m, (∀ d, m ≠ .detach d) → (∀ ch, m = .attach ch → kd ch.id = false) → (m ∈ (s'.act i).sys ↔ m ∈ (s.act i).sys)
  attsub : ∀ m ∈ (s'.act i).sys, m ∈ (s.act i).sys
  chsub : ∀ ch ∈ (s'.act i).cell.children, ch ∈ (s.act i).cell.children
  chNd : (s'.act i).cell.children.Nodup
  chkd : ∀ p < s.n, ∀ ch ∈ (s'.act p).cell.children, kd ch.id = false
  chkeep : ∀ ch ∈ (s.act i).cell.children, kd ch.id = false → ch ∈ (s'.act i).cell.children
  att : ∀ p < s.n, ∀ ch, .attach ch ∈ (s'.act p).sys → (s'.act p).alive = true → kd ch.id = false
  pend : ∀ j < s.n, 0 < j → (s.act j).cell.hasParent = false → (s.act j).alive = true → kd j = false → ∀ p, (s.act j).parent = some p → kd p = false
  nokill : kd i = false
  leaf : ∀ k < s.n, kd k = true → (s.act k).isOpen = true → (s'.act k).cell.children = []
  det : (s.act i).isOpen = true → ∀ q, (s'.act i).sys.count (.detach q) =
    (s'.act i).cell.children.countP (fun ch => decide (ch.path = q) && !(s.act ch.id).isOpen)

theorem GInv_kills {s s' : St} {i : Nat} {kd : Nat → Bool} (h : GInv s) (q : Kills s s' i kd) : GInv s' := by
  have hsub : ∀ k m, m ∈ (s'.act k).sys → m ∈ (s.act k).sys := by
    intro k m hm
    by_cases hk : k = i
    · subst hk; exact q.attsub m hm
    · rwa [(q.other k hk).1] at hm
  have hkeep : ∀ k m, (∀ d, m ≠ .detach d) → (∀ ch, m = .attach ch → kd ch.id = false) → m ∈ (s.act k).sys → m ∈ (s'.act k).sys := by
    intro k m hd ha hm
    by_cases hk : k = i
    · subst hk; exact (q.sys m hd ha).2 hm
    · rwa [(q.other k hk).1]
  have hchs : ∀ p ch, ch ∈ (s'.act p).cell.children → ch ∈ (s.act p).cell.children := by
    intro p ch hch
    by_cases hk : p = i
    · subst hk; exact q.chsub ch hch
    · rwa [(q.other p hk).2] at hch
  constructor
  case ok => intro j hj; rw [(q.same j).2.2.2.1]; exact h.ok j (q.n ▸ hj)
  case okst => intro j hj b hb; exact h.okst j (q.n ▸ hj) b (hsub _ _ hb)
  case root => rw [(q.same 0).2.1]; exact h.root
  case rootS =>
    intro ho
    rw [q.opn] at ho
    simp at ho
    rw [(q.same 0).2.2.2.2.2.2.1]; exact h.rootS ho.1
  case parS => intro j hj h0; rw [(q.same j).2.1]; exact h.parS j (q.n ▸ hj) h0
  case attP =>
    intro p hp ch hch ha
    have hk := q.att p (q.n ▸ hp) ch hch ha
    rw [q.alive] at ha
    simp at ha
    obtain ⟨h1, h2⟩ := h.attP p (q.n ▸ hp) ch (hsub _ _ hch) ha.1
    rw [q.alive, (q.same ch.id).2.2.1]
    exact ⟨h1, by simp [h2, hk]⟩
  case chd =>
    intro p hp ch hch
    obtain ⟨s1, s2, s3, s4, s5, s6, s7, s8⟩ := q.same ch.id
    obtain ⟨t1, t2, t3, t4, t5, t6⟩ := h.chd p (q.n ▸ hp) ch (hchs p ch hch)
    rw [q.n, s1, s2, s3, q.alive]
    exact ⟨t1, t2, t3, t4, t5, by simp [t6, q.chkd p (q.n ▸ hp) ch hch]⟩
  case chNd =>
    intro p hp
    by_cases hk : p = i
    · subst hk; exact q.chNd
    · rw [(q.other p hk).2]; exact h.chNd p (q.n ▸ hp)
  case pend =>
    intro j hj h0 hpar ha p hp
    obtain ⟨s1, s2, s3, s4, s5, s6, s7, s8⟩ := q.same j
    rw [s1] at hpar; rw [s2] at hp; rw [q.alive] at ha
    simp at ha
    obtain ⟨t1, t2, t3, t4, t5, t6, t7, t8⟩ := h.pend j (q.n ▸ hj) h0 hpar ha.1 p hp
    have hpk := q.pend j (q.n ▸ hj) h0 hpar ha.1 ha.2 p hp
    rw [q.alive, q.opn, s3, s5, s7, s8]
    refine ⟨hkeep _ _ (by simp) (by simp; exact ha.2) t1, by simp [t2, hpk], by simp [t3, ha.2], t4, ?_, t6, t7,
      fun m hm => t8 m (hsub _ _ hm)⟩
    rw [List.eq_nil_iff_forall_not_mem]
    intro ch hch
    have := hchs j ch hch
    rw [t5] at this
    simp at this
  case attd =>
    intro j hj hpar ha p hp
    obtain ⟨s1, s2, s3, s4, s5, s6, s7, s8⟩ := q.same j
    rw [s1] at hpar; rw [s2] at hp; rw [q.alive] at ha
    simp at ha
    have := h.attd j (q.n ▸ hj) hpar ha.1 p hp
    rw [s3]
    by_cases hk : p = i
    · subst hk; exact q.chkeep _ this ha.2
    · rw [(q.other p hk).2]; exact this
  case startd =>
    intro j hj hpar ho
    obtain ⟨s1, s2, s3, s4, s5, s6, s7, s8⟩ := q.same j
    rw [s1] at hpar
    rw [q.opn] at ho
    simp at ho
    rw [s7]
    rcases h.startd j (q.n ▸ hj) hpar ho.1 with h1 | h1
    · exact .inl h1
    · exact .inr (hkeep _ _ (by simp) (by simp) h1)
  case dead =>
    intro j hj ha
    rw [q.alive] at ha
    rw [q.opn]
    simp at ha ⊢
    intro ho
    by_cases hx : (s.act j).alive = true
    · exact ha hx
    · rw [h.dead j (q.n ▸ hj) (by simpa using hx)] at ho; simp at ho
  case closed =>
    intro j hj ho
    rw [q.opn] at ho
    simp at ho
    by_cases hx : (s.act j).isOpen = true
    · exact q.leaf j (q.n ▸ hj) (ho hx) hx
    · have := h.closed j (q.n ▸ hj) (by simpa using hx)
      rw [List.eq_nil_iff_forall_not_mem]
      intro ch hch
      have h2 := hchs j ch hch
      rw [this] at h2
      simp at h2
  case det =>
    intro p hp ho d
    rw [q.opn] at ho
    simp at ho
    have e : (s'.act p).cell.children.countP (fun ch : Child => decide (ch.path = d) && !(s'.act ch.id).isOpen) =
        (s'.act p).cell.children.countP (fun ch : Child => decide (ch.path = d) && !(s.act ch.id).isOpen) :=
      List.countP_congr (fun ch hch => by rw [q.opn, q.chkd p (q.n ▸ hp) ch hch]; simp)
    rw [e]
    by_cases hk : p = i
    · subst hk; exact q.det ho.1 d
    · rw [(q.other p hk).1, (q.other p hk).2]; exact h.det p (q.n ▸ hp) ho.1 d
  case uniq =>
    intro a ha b hb hne
    obtain ⟨s1, s2, s3, s4, s5, s6, s7, s8⟩ := q.same a
    obtain ⟨t1, t2, t3, t4, t5, t6, t7, t8⟩ := q.same b
    rw [q.alive, q.alive, s2, t2, s3, t3]
    simp only [Bool.and_eq_true]
    intro h1 h2
    exact h.uniq a (q.n ▸ ha) b (q.n ▸ hb) hne h1.1 h2.1
  case told =>
    intro p hp ht
    rw [(q.same p).2.2.2.2.2.1] at ht
    rw [(q.same p).2.2.2.2.1]; exact h.told p (q.n ▸ hp) ht
  case pills =>
    intro p hp ho ht ch hch hco
    rw [q.opn] at ho hco
    simp at ho hco
    rw [(q.same p).2.2.2.2.2.1] at ht
    obtain ⟨s1, s2, s3, s4, s5, s6, s7, s8⟩ := q.same ch.id
    rw [s6, s8]
    rcases h.pills p (q.n ▸ hp) ho.1 ht ch (hchs p ch hch) hco.1 with h1 | h1 | h1
    · exact .inl h1
    · exact .inr (.inl (hkeep _ _ (by simp) (by simp) h1))
    · exact .inr (.inr h1)

/-- Actor `i` attaches the pending child `c`. -/
structure Accepts (s s' : St) (i : Nat) (c : Child) : Prop where
  n : s'.n = s.n
  hi : i < s.n
  hne : c.id ≠ i
  hc : .attach c ∈ (s.act i).sys
  io : (s.act i).isOpen = true
  ns : (s.act i).cell.stopping = false
  cpar : (s.act c.id).parent = some i
  chp : (s.act c.id).cell.hasParent = false
  c0 : 0 < c.id
  cn : c.id < s.n
  same : ∀ k, (s'.act k).isOpen = (s.act k).isOpen ∧ (s'.act k).alive = (s.act k).alive ∧
    (s'.act k).parent = (s.act k).parent ∧ (s'.act k).path = (s.act k).path ∧ (s'.act k).ok = (s.act k).ok ∧
    (s'.act k).cell.stopping = (s.act k).cell.stopping ∧ (s'.act k).told = (s.act k).told ∧
    (s'.act k).cell.started = (s.act k).cell.started ∧ (s'.act k).usr = (s.act k).usr
  hp : ∀ k, (s'.act k).cell.hasParent = ((s.act k).cell.hasParent || decide (k = c.id))
  ch : ∀ k, (s'.act k).cell.children = if k = i then (s.act k).cell.children ++ [c] else (s.act k).cell.children
  sysI : ∀ m, m ∈ (s'.act i).sys ↔ (m ∈ (s.act i).sys ∧ m ≠ .attach c)
  cntI : ∀ d, (s'.act i).sys.count (.detach d) = (s.act i).sys.count (.detach d)
  sysC : (s'.act c.id).sys = (s.act c.id).sys ++ [.start true]
  sys : ∀ k, k ≠ i → k ≠ c.id → (s'.act k).sys = (s.act k).sys

theorem GInv_accepts {s s' : St} {i : Nat} {c : Child} (h : GInv s) (hL : LInv s) (q : Accepts s s' i c) : GInv s' := by
  have hia : (s.act i).alive = true := by
    cases hx : (s.act i).alive with
    | true => rfl
    | false => have := h.dead i q.hi hx; rw [q.io] at this; simp at this
  obtain ⟨hcp, hca⟩ := h.attP i q.hi c q.hc hia
  obtain ⟨t1, t2, t3, t4, t5, t6, t7, t8⟩ := h.pend c.id q.cn q.c0 q.chp hca i q.cpar
  have hmem : ∀ k m, (∀ b, m ≠ .start b) → (∀ ch, m ≠ .attach ch) → (m ∈ (s'.act k).sys ↔ m ∈ (s.act k).sys) := by
    intro k m hs ha
    by_cases hk : k = i
    · subst hk; rw [q.sysI]; exact ⟨fun h => h.1, fun h => ⟨h, ha c⟩⟩
    · by_cases hkc : k = c.id
      · subst hkc; rw [q.sysC]; simp [hs]
      · rw [q.sys k hk hkc]
  have hatt : ∀ k ch, .attach ch ∈ (s'.act k).sys ↔ (.attach ch ∈ (s.act k).sys ∧ ¬(k = i ∧ ch = c)) := by
    intro k ch
    by_cases hk : k = i
    · subst hk; rw [q.sysI]; simp
    · by_cases hkc : k = c.id
      · subst hkc; rw [q.sysC]; simp [q.hne]
      · rw [q.sys k hk hkc]; simp [hk]
  have hst : ∀ k b, .start b ∈ (s'.act k).sys ↔ (.start b ∈ (s.act k).sys ∨ (k = c.id ∧ b = true)) := by
    intro k b
    by_cases hk : k = i
    · subst hk; rw [q.sysI]; simp [q.hne.symm]
    · by_cases hkc : k = c.id
      · subst hkc; rw [q.sysC]; simp
      · rw [q.sys k hk hkc]; simp [hkc]
  have hcnot : ∀ p < s.n, ∀ ch ∈ (s.act p).cell.children, ch.id ≠ c.id := by
    intro p hp ch hch hcc
    have := (h.chd p hp ch hch).2.2.2.2.1
    rw [hcc, q.chp] at this; simp at this
  have hco : (⟨c.id, (s.act c.id).path⟩ : Child) = c := by rw [hcp]
  constructor
  case ok => intro j hj; rw [(q.same j).2.2.2.2.1]; exact h.ok j (q.n ▸ hj)
  case okst =>
    intro j hj b hb
    rcases (hst j b).1 hb with hb | hb
    · exact h.okst j (q.n ▸ hj) b hb
    · exact hb.2
  case root => rw [(q.same 0).2.2.1]; exact h.root
  case rootS =>
    intro ho
    rw [(q.same 0).1] at ho
    rw [(q.same 0).2.2.2.2.2.2.2.1]; exact h.rootS ho
  case parS => intro j hj h0; rw [(q.same j).2.2.1]; exact h.parS j (q.n ▸ hj) h0
  case attP =>
    intro p hp ch hch ha
    rw [(q.same p).2.1] at ha
    rw [(q.same ch.id).2.1, (q.same ch.id).2.2.2.1]
    exact h.attP p (q.n ▸ hp) ch ((hatt p ch).1 hch).1 ha
  case chd =>
    intro p hp ch hch
    obtain ⟨s1, s2, s3, s4, s5, s6, s7, s8, s9⟩ := q.same ch.id
    rw [q.n, s2, s3, s4, q.hp]
    rw [q.ch] at hch
    have hold : ch ∈ (s.act p).cell.children → 0 < ch.id ∧ ch.id < s.n ∧ (s.act ch.id).parent = some p ∧
        (s.act ch.id).path = ch.path ∧ ((s.act ch.id).cell.hasParent || decide (ch.id = c.id)) = true ∧ (s.act ch.id).alive = true := by
      intro hch
      obtain ⟨u1, u2, u3, u4, u5, u6⟩ := h.chd p (q.n ▸ hp) ch hch
      exact ⟨u1, u2, u3, u4, by simp [u5], u6⟩
    split at hch
    · rename_i hpi
      rcases List.mem_append.1 hch with hch | hch
      · exact hold hch
      · simp at hch
        subst hch
        exact ⟨q.c0, q.cn, by rw [hpi]; exact q.cpar, hcp, by simp, hca⟩
    · exact hold hch
  case chNd =>
    intro p hp
    rw [q.ch]
    split
    · rw [List.nodup_append]
      refine ⟨h.chNd p (q.n ▸ hp), by simp, ?_⟩
      intro a ha b hb
      simp at hb
      subst hb
      rintro rfl
      exact hcnot p (q.n ▸ hp) a ha rfl
    · exact h.chNd p (q.n ▸ hp)
  case pend =>
    intro j hj h0 hpar ha p hp
    obtain ⟨s1, s2, s3, s4, s5, s6, s7, s8, s9⟩ := q.same j
    rw [q.hp] at hpar
    simp at hpar
    rw [s2] at ha; rw [s3] at hp
    obtain ⟨u1, u2, u3, u4, u5, u6, u7, u8⟩ := h.pend j (q.n ▸ hj) h0 hpar.1 ha p hp
    rw [s1, s4, s6, s8, s9, q.ch, (q.same p).2.1, hatt]
    have hji : j ≠ i := by
      rintro rfl
      have := u8 _ q.hc
      simp [isWatchMsg] at this
    refine ⟨⟨u1, ?_⟩, u2, u3, u4, by simp [hji, u5], u6, u7, ?_⟩
    · rintro ⟨-, hjc⟩
      exact hpar.2 (by rw [← hjc])
    · intro m hm
      rw [q.sys j hji hpar.2] at hm
      exact u8 m hm
  case attd =>
    intro j hj hpar ha p hp
    obtain ⟨s1, s2, s3, s4, s5, s6, s7, s8, s9⟩ := q.same j
    rw [s2] at ha; rw [s3] at hp; rw [q.hp] at hpar
    rw [s4, q.ch]
    by_cases hjc : j = c.id
    · subst hjc
      rw [q.cpar] at hp
      simp at hp
      subst hp
      simp [hco]
    · simp [hjc] at hpar
      have := h.attd j (q.n ▸ hj) hpar ha p hp
      split <;> simp [this]
  case startd =>
    intro j hj hpar ho
    obtain ⟨s1, s2, s3, s4, s5, s6, s7, s8, s9⟩ := q.same j
    rw [s1] at ho; rw [q.hp] at hpar
    rw [s8, hst]
    by_cases hjc : j = c.id
    · exact .inr (.inr ⟨hjc, rfl⟩)
    · simp [hjc] at hpar
      rcases h.startd j (q.n ▸ hj) hpar ho with h1 | h1
      · exact .inl h1
      · exact .inr (.inl h1)
  case dead => intro j hj; rw [(q.same j).1, (q.same j).2.1]; exact h.dead j (q.n ▸ hj)
  case closed =>
    intro j hj ho
    rw [(q.same j).1] at ho
    rw [q.ch]
    have hji : j ≠ i := by rintro rfl; rw [q.io] at ho; simp at ho
    rw [if_neg hji]
    exact h.closed j (q.n ▸ hj) ho
  case det =>
    intro p hp ho d
    rw [(q.same p).1] at ho
    have hfun : (fun ch : Child => decide (ch.path = d) && !(s'.act ch.id).isOpen) =
        fun ch : Child => decide (ch.path = d) && !(s.act ch.id).isOpen := by
      funext ch; rw [(q.same ch.id).1]
    have hd := h.det p (q.n ▸ hp) ho d
    rw [hfun, q.ch]
    by_cases hk : p = i
    · subst hk
      rw [if_pos rfl, q.cntI, hd, List.countP_append]
      simp [List.countP_cons, t3]
    · rw [if_neg hk, ← hd]
      by_cases hkc : p = c.id
      · subst hkc; rw [q.sysC, List.count_append]; simp
      · rw [q.sys p hk hkc]
  case uniq =>
    intro a ha b hb hne
    obtain ⟨s1, s2, s3, s4, s5, s6, s7, s8, s9⟩ := q.same a
    obtain ⟨u1, u2, u3, u4, u5, u6, u7, u8, u9⟩ := q.same b
    rw [s2, u2, s3, u3, s4, u4]
    exact h.uniq a (q.n ▸ ha) b (q.n ▸ hb) hne
  case told =>
    intro p hp ht
    rw [(q.same p).2.2.2.2.2.2.1] at ht
    rw [(q.same p).2.2.2.2.2.1]; exact h.told p (q.n ▸ hp) ht
  case pills =>
    intro p hp ho ht ch hch hco
    rw [(q.same p).1] at ho
    rw [(q.same ch.id).1] at hco
    rw [(q.same p).2.2.2.2.2.2.1] at ht
    have hpi : p ≠ i := by
      rintro rfl
      have := h.told p q.hi ht
      rw [q.ns] at this; simp at this
    rw [q.ch, if_neg hpi] at hch
    rw [(q.same ch.id).2.2.2.2.2.2.2.2, (q.same ch.id).2.2.2.2.2.2.1, hmem _ _ (by simp) (by simp)]
    exact h.pills p (q.n ▸ hp) ho ht ch hch hco

theorem GInv_init : GInv St.init := by
  constructor <;> simp [St.init, Act.root, Cell.fresh]

theorem GInv_create (s : St) (p path : Nat) (h : GInv s) (hL : LInv s) (hp : p < s.n) (hpo : (s.act p).isOpen = true)
    (hu : ∀ j < s.n, (s.act j).alive = true → (s.act j).parent = some p → (s.act j).path ≠ path)
    (hps : (s.act p).cell.started = true) :
    GInv { (s.upd p ((s.act p).pushSys [.attach ⟨s.n, path⟩])).upd s.n (Act.new p path true) with n := s.n + 1 } := by
  set s' : St := { (s.upd p ((s.act p).pushSys [.attach ⟨s.n, path⟩])).upd s.n (Act.new p path true) with n := s.n + 1 } with hs'
  have hnew : s'.act s.n = Act.new p path true := by simp [hs', St.upd]
  have hpa : (s.act p).alive = true := by
    cases hx : (s.act p).alive with
    | true => rfl
    | false => have := h.dead p hp hx; rw [hpo] at this; simp at this
  have hold : ∀ k < s.n, (s'.act k).cell = (s.act k).cell ∧ (s'.act k).isOpen = (s.act k).isOpen ∧
      (s'.act k).alive = (s.act k).alive ∧ (s'.act k).parent = (s.act k).parent ∧ (s'.act k).path = (s.act k).path ∧
      (s'.act k).ok = (s.act k).ok ∧ (s'.act k).told = (s.act k).told ∧ (s'.act k).usr = (s.act k).usr ∧
      (s'.act k).sys = (s.act k).sys ++ (if k = p then [.attach ⟨s.n, path⟩] else []) := by
    intro k hk
    have : s'.act k = if k = p then (s.act p).pushSys [.attach ⟨s.n, path⟩] else s.act k := by
      simp [hs', St.upd, Nat.ne_of_lt hk]
    rw [this]
    split
    · rename_i hkp; subst hkp
      simp [pushSys_sys, hpo]
    · simp
  have hlt : ∀ {j}, j < s'.n → j < s.n ∨ j = s.n := by
    intro j hj
    have : s'.n = s.n + 1 := rfl
    omega
  constructor
  case ok =>
    intro j hj
    rcases hlt hj with hj | rfl
    · rw [(hold j hj).2.2.2.2.2.1]; exact h.ok j hj
    · rw [hnew]; rfl
  case okst =>
    intro j hj b hb
    rcases hlt hj with hj | rfl
    · rw [(hold j hj).2.2.2.2.2.2.2.2] at hb
      rcases List.mem_append.1 hb with hb | hb
      · exact h.okst j hj b hb
      · split at hb <;> simp at hb
    · rw [hnew] at hb; simp [Act.new] at hb
  case root => rw [(hold 0 hL.pos).2.2.2.1]; exact h.root
  case rootS =>
    rw [(hold 0 hL.pos).2.1, (hold 0 hL.pos).1]; exact h.rootS
  case parS =>
    intro j hj h0
    rcases hlt hj with hj | rfl
    · rw [(hold j hj).2.2.2.1]; exact h.parS j hj h0
    · rw [hnew]; exact ⟨p, rfl⟩
  case attP =>
    intro k hk ch hch ha
    rcases hlt hk with hk | rfl
    · rw [(hold k hk).2.2.1] at ha
      rw [(hold k hk).2.2.2.2.2.2.2.2] at hch
      rcases List.mem_append.1 hch with hch | hch
      · have hcn := (hL.att k hk ch hch).2.1
        rw [(hold _ hcn).2.2.1, (hold _ hcn).2.2.2.2.1]
        exact h.attP k hk ch hch ha
      · split at hch
        · simp at hch; subst hch; simp only; rw [hnew]; exact ⟨rfl, rfl⟩
        · simp at hch
    · rw [hnew] at hch; simp [Act.new] at hch
  case chd =>
    intro k hk ch hch
    rcases hlt hk with hk | rfl
    · rw [(hold k hk).1] at hch
      obtain ⟨u1, u2, u3, u4, u5, u6⟩ := h.chd k hk ch hch
      rw [(hold _ u2).1, (hold _ u2).2.2.1, (hold _ u2).2.2.2.1, (hold _ u2).2.2.2.2.1]
      exact ⟨u1, Nat.lt_succ_of_lt u2, u3, u4, u5, u6⟩
    · rw [hnew] at hch; simp [Act.new, Cell.fresh] at hch
  case chNd =>
    intro k hk
    rcases hlt hk with hk | rfl
    · rw [(hold k hk).1]; exact h.chNd k hk
    · rw [hnew]; simp [Act.new, Cell.fresh]
  case pend =>
    intro j hj h0 hpar ha k hkp
    rcases hlt hj with hj | rfl
    · obtain ⟨s1, s2, s3, s4, s5, s6, s7, s8, s9⟩ := hold j hj
      rw [s1] at hpar; rw [s3] at ha; rw [s4] at hkp
      have hk : k < s.n := Nat.lt_trans (hL.par j hj k hkp) hj
      obtain ⟨u1, u2, u3, u4, u5, u6, u7, u8⟩ := h.pend j hj h0 hpar ha k hkp
      rw [s1, s2, s5, s8, s9, (hold k hk).2.2.1, (hold k hk).2.2.2.2.2.2.2.2]
      have hjp : j ≠ p := by
        rintro rfl
        rw [u4] at hps; simp at hps
      refine ⟨by simp [u1], u2, u3, u4, u5, u6, u7, ?_⟩
      rw [if_neg hjp, List.append_nil]; exact u8
    · rw [hnew] at hkp ⊢
      simp [Act.new] at hkp
      subst hkp
      rw [(hold p hp).2.2.1, (hold p hp).2.2.2.2.2.2.2.2]
      exact ⟨by simp [Act.new], hpa, rfl, rfl, rfl, rfl, by simp [Act.new], by simp [Act.new]⟩
  case attd =>
    intro j hj hpar ha k hkp
    rcases hlt hj with hj | rfl
    · obtain ⟨s1, s2, s3, s4, s5, s6, s7, s8, s9⟩ := hold j hj
      rw [s1] at hpar; rw [s3] at ha; rw [s4] at hkp
      have hk : k < s.n := Nat.lt_trans (hL.par j hj k hkp) hj
      rw [s5, (hold k hk).1]
      exact h.attd j hj hpar ha k hkp
    · rw [hnew] at hpar; simp [Act.new, Cell.fresh] at hpar
  case startd =>
    intro j hj hpar ho
    rcases hlt hj with hj | rfl
    · obtain ⟨s1, s2, s3, s4, s5, s6, s7, s8, s9⟩ := hold j hj
      rw [s1] at hpar ⊢; rw [s2] at ho
      rw [s9]
      rcases h.startd j hj hpar ho with h1 | h1
      · exact .inl h1
      · exact .inr (by simp [h1])
    · rw [hnew] at hpar; simp [Act.new, Cell.fresh] at hpar
  case dead =>
    intro j hj
    rcases hlt hj with hj | rfl
    · rw [(hold j hj).2.1, (hold j hj).2.2.1]; exact h.dead j hj
    · rw [hnew]; simp [Act.new]
  case closed =>
    intro j hj
    rcases hlt hj with hj | rfl
    · rw [(hold j hj).2.1, (hold j hj).1]; exact h.closed j hj
    · rw [hnew]; simp [Act.new]
  case det =>
    intro k hk ho d
    rcases hlt hk with hk | rfl
    · rw [(hold k hk).2.1] at ho
      rw [(hold k hk).1, (hold k hk).2.2.2.2.2.2.2.2]
      have e : (s.act k).cell.children.countP (fun ch : Child => decide (ch.path = d) && !(s'.act ch.id).isOpen) =
          (s.act k).cell.children.countP (fun ch : Child => decide (ch.path = d) && !(s.act ch.id).isOpen) :=
        List.countP_congr (fun ch hch => by rw [(hold _ (h.chd k hk ch hch).2.1).2.1])
      rw [e, ← h.det k hk ho d, List.count_append]
      split <;> simp
    · rw [hnew]; simp [Act.new, Cell.fresh]
  case uniq =>
    intro a ha b hb hne h1 h2 h3 h4
    rcases hlt ha with ha | rfl <;> rcases hlt hb with hb | rfl
    · obtain ⟨-, -, a3, a4, a5, -⟩ := hold a ha
      obtain ⟨-, -, b3, b4, b5, -⟩ := hold b hb
      rw [a3] at h1; rw [b3] at h2; rw [a4, b4] at h3; rw [b4] at h4; rw [a5, b5]
      exact h.uniq a ha b hb hne h1 h2 h3 h4
    · obtain ⟨-, -, a3, a4, a5, -⟩ := hold a ha
      rw [a3] at h1; rw [hnew, a4] at h3; rw [hnew, a5]
      exact hu a ha h1 h3
    · obtain ⟨-, -, b3, b4, b5, -⟩ := hold b hb
      rw [b3] at h2; rw [hnew, b4] at h3; rw [hnew, b5]
      exact (hu b hb h2 h3.symm).symm
    · exact absurd rfl hne
  case told =>
    intro k hk
    rcases hlt hk with hk | rfl
    · rw [(hold k hk).1, (hold k hk).2.2.2.2.2.2.1]; exact h.told k hk
    · rw [hnew]; simp [Act.new]
  case pills =>
    intro k hk ho ht ch hch hco
    rcases hlt hk with hk | rfl
    · obtain ⟨s1, s2, s3, s4, s5, s6, s7, s8, s9⟩ := hold k hk
      rw [s1] at hch; rw [s2] at ho; rw [s7] at ht
      have hcn := (h.chd k hk ch hch).2.1
      obtain ⟨c1, c2, c3, c4, c5, c6, c7, c8, c9⟩ := hold _ hcn
      rw [c2] at hco
      rw [c7, c8, c9]
      rcases h.pills k hk ho ht ch hch hco with h1 | h1 | h1
      · exact .inl h1
      · exact .inr (.inl (by simp [h1]))
      · exact .inr (.inr h1)
    · rw [hnew] at hch; simp [Act.new, Cell.fresh] at hch

end Verif.ActorTree
