import Verif.Lemmas.ActorTree3
set_option autoImplicit false

namespace Verif.ActorTree
open Verif.ActorCell

theorem stopImpl_killed (s : St) (c : Cell) (k : Nat) : killed s (stopImpl c).2 k = false := by
  unfold killed
  rw [List.any_eq_false]
  intro e he
  simp [stopImpl] at he
  rcases he with ⟨_, rfl⟩ | ⟨w, _, rfl⟩ | ⟨_, rfl⟩ <;> simp [kills]

theorem stopImpl_adopts (c : Cell) (k : Nat) : (stopImpl c).2.any (adopts k) = false := by
  rw [List.any_eq_false]
  intro e he
  simp [stopImpl] at he
  rcases he with ⟨_, rfl⟩ | ⟨w, _, rfl⟩ | ⟨_, rfl⟩ <;> simp [adopts]

theorem stopImpl_pill (c : Cell) (i k : Nat) : .pill ∉ (stopImpl c).2.filterMap (usrTo i k) := by
  rw [List.mem_filterMap]
  rintro ⟨e, he, hk⟩
  simp [stopImpl] at he
  rcases he with ⟨_, rfl⟩ | ⟨w, _, rfl⟩ | ⟨_, rfl⟩ <;> simp [usrTo, terminatedMsg] at hk

theorem stopImpl_sys (s : St) (c : Cell) (i k : Nat) : (stopImpl c).2.filterMap (sysTo s i k) =
    if c.hasParent = true ∧ (s.act i).parent = some k then [.detach (s.act i).path] else [] := by
  unfold stopImpl
  simp only [List.filterMap_append]
  have h1 : (c.watchers.map Eff.tellTerminated).filterMap (sysTo s i k) = [] := by
    rw [List.filterMap_eq_nil_iff]; intro e he; rw [List.mem_map] at he; obtain ⟨w, _, rfl⟩ := he; rfl
  have h2 : (if c.started then [Eff.postStop] else []).filterMap (sysTo s i k) = [] := by
    split <;> simp [sysTo]
  rw [h1, h2]
  by_cases hp : c.hasParent = true
  · simp only [hp, if_true, true_and, List.filterMap_cons, sysTo, List.filterMap_nil, List.nil_append]
    by_cases hk : (s.act i).parent = some k <;> simp [hk]
  · simp [hp]

def isDestroy : Eff → Bool
  | .destroy _ => true
  | _ => false

theorem closes_procMsg (s b : St) (i : Nat) (m : Msg) (sys' usr' : List Msg) (ds : List Eff) (c' : Cell)
    (hi : i < s.n) (ho : (s.act i).isOpen = true) (hm : m ≠ .stop ∨ ds = [])
    (hpr : process (s.act i).cell m = ((stopImpl c').1, ds ++ (stopImpl c').2, true))
    (hds : ∀ e ∈ ds, isDestroy e = true)
    (hnk : killed (mid s i m sys' usr') ds i = false)
    (hc1 : c'.children = []) (hc2 : 0 < i → c'.hasParent = true) (ha : (s.act i).alive = true)
    (hr0 : i = 0 → (s.act i).parent = none)
    (bn : b.n = s.n)
    (bi : (b.act i).cell = c' ∧ (b.act i).isOpen = true ∧ (b.act i).alive = (s.act i).alive ∧ (b.act i).parent = (s.act i).parent ∧
      (b.act i).path = (s.act i).path ∧ (b.act i).ok = (s.act i).ok ∧ (b.act i).told = (s.act i).told)
    (batt : ∀ ch, .attach ch ∈ sys' ↔ .attach ch ∈ (b.act i).sys) (bst : ∀ x, .start x ∈ sys' → .start x ∈ (b.act i).sys)
    (bk : ∀ k, k ≠ i → b.act k = if killed (mid s i m sys' usr') ds k = true then { s.act k with alive := false, isOpen := false } else s.act k) :
    Closes b (procMsg s i m sys' usr') i := by
  have hkl : ∀ k, killed (mid s i m sys' usr') (process (s.act i).cell m).2.1 k = killed (mid s i m sys' usr') ds k := by
    intro k
    have := stopImpl_killed (mid s i m sys' usr') c' k
    unfold killed at this ⊢
    rw [hpr]; simp only [List.any_append, this, Bool.or_false]
  have had : ∀ k, (process (s.act i).cell m).2.1.any (adopts k) = false := by
    intro k
    rw [hpr]
    simp only [List.any_append, stopImpl_adopts, Bool.or_false]
    rw [List.any_eq_false]
    intro e he
    have := hds e he
    cases e <;> simp_all [isDestroy, adopts]
  have hsy : ∀ k, (process (s.act i).cell m).2.1.filterMap (sysTo (mid s i m sys' usr') i k) =
      if c'.hasParent = true ∧ (s.act i).parent = some k then [.detach (s.act i).path] else [] := by
    intro k
    rw [hpr]
    have h0 : ds.filterMap (sysTo (mid s i m sys' usr') i k) = [] := by
      rw [List.filterMap_eq_nil_iff]
      intro e he
      have := hds e he
      cases e <;> simp_all [isDestroy, sysTo]
    simp only [List.filterMap_append, h0, List.nil_append, stopImpl_sys, mid_self]
  have hus : ∀ k, .pill ∉ (process (s.act i).cell m).2.1.filterMap (usrTo i k) := by
    intro k
    rw [hpr]
    have h0 : ds.filterMap (usrTo i k) = [] := by
      rw [List.filterMap_eq_nil_iff]
      intro e he
      have := hds e he
      cases e <;> simp_all [isDestroy, usrTo]
    simp only [List.filterMap_append, h0, List.nil_append]
    exact stopImpl_pill _ _ _
  obtain ⟨i1, i2, i3, i4, i5, i6, i7⟩ := bi
  constructor
  case n => exact bn.symm
  case hi => rw [bn]; exact hi
  case io => exact i2
  case ich => rw [i1]; exact hc1
  case ipar => rw [i1]; exact hc2
  case ia => rw [i3]; exact ha
  case same =>
    intro k
    rw [procMsg_act]
    simp only [deliver_alive, deliver_hasParent, deliver_children, deliver_parent, deliver_path, deliver_ok, deliver_stopping,
      deliver_told, hkl, had]
    by_cases hk : k = i
    · subst hk
      rw [hnk]
      simp only [mid_self, i1, i3, i4, i5, i6, i7, hpr]
      have hms : ((m == Msg.stop && !true) : Bool) = false := by simp
      rw [hms]
      simp [stopImpl]
    · rw [mid_ne _ _ _ _ _ _ hk, bk k hk]
      split
      · rename_i hx; simp [hx]
      · rename_i hx; simp [hx]
  case opn =>
    intro k
    rw [procMsg_act, deliver_isOpen, hkl]
    by_cases hk : k = i
    · subst hk; simp [mid_self, hpr]
    · rw [mid_ne _ _ _ _ _ _ hk, bk k hk]
      split <;> simp_all
  case started =>
    intro k hk
    rw [procMsg_act, deliver_started, mid_ne _ _ _ _ _ _ hk, bk k hk]
    split <;> rfl
  case pill =>
    intro k hk
    rw [procMsg_act, deliver_usr, mid_ne _ _ _ _ _ _ hk, bk k hk, hkl]
    have hu : ((if killed (mid s i m sys' usr') ds k = true then { s.act k with alive := false, isOpen := false } else s.act k).usr) = (s.act k).usr := by
      split <;> rfl
    rw [hu]
    split
    · simp [hus k]
    · rfl
  case sys =>
    intro k hk
    rw [procMsg_act, deliver_sys, mid_ne _ _ _ _ _ _ hk, hkl, hsy, i4, i5]
    have hbo : (b.act k).isOpen = ((s.act k).isOpen && !killed (mid s i m sys' usr') ds k) := by
      rw [bk k hk]; split <;> simp_all
    have hbs : (b.act k).sys = (s.act k).sys := by
      rw [bk k hk]; split <;> rfl
    rw [hbo, hbs]
    by_cases hp : (s.act i).parent = some k
    · have hhp : c'.hasParent = true := by
        rcases Nat.eq_zero_or_pos i with h0 | h0
        · rw [hr0 h0] at hp; simp at hp
        · exact hc2 h0
      simp [hp, hhp]
    · simp [hp]
  case att =>
    intro ch
    rw [procMsg_act, deliver_sys, mid_self, hpr]
    simp [batt]
  case okst =>
    intro x hx
    rw [procMsg_act, deliver_sys, mid_self, hpr] at hx
    simp at hx
    exact bst x hx

theorem carries_any {l : List Msg} {k : Nat} : l.any (carries k) = true ↔ ∃ ch, .attach ch ∈ l ∧ ch.id = k := by
  rw [List.any_eq_true]
  constructor
  · rintro ⟨m, hm, hk⟩
    cases m with
    | attach ch => exact ⟨ch, hm, by simpa [carries] using hk⟩
    | _ => simp [carries] at hk
  · rintro ⟨ch, hm, hk⟩
    exact ⟨_, hm, by simp [carries, hk]⟩

/-- Which cells die when child cell `x` is destroyed. -/
def kdOf (s : St) (x : Child) (k : Nat) : Bool := x.id == k || (s.act x.id).sys.any (carries k)

/-- Removing a closed child. -/
theorem kills_detach (s s' : St) (i : Nat) (d : Nat) (ms : List Msg) (x : Child) (as bs : List Child) (h : GInv s) (hL : LInv s)
    (hi : i < s.n) (ho : (s.act i).isOpen = true) (hm : (s.act i).sys = .detach d :: ms)
    (hch : (s.act i).cell.children = as ++ x :: bs) (hxp : x.path = d) (hxo : (s.act x.id).isOpen = false)
    (hn : s'.n = s.n)
    (hsame : ∀ k, (s'.act k).cell.hasParent = (s.act k).cell.hasParent ∧
      (s'.act k).parent = (s.act k).parent ∧ (s'.act k).path = (s.act k).path ∧ (s'.act k).ok = (s.act k).ok ∧
      (s'.act k).cell.stopping = (s.act k).cell.stopping ∧ (s'.act k).told = (s.act k).told ∧
      (s'.act k).cell.started = (s.act k).cell.started ∧ (s'.act k).usr = (s.act k).usr)
    (hopn : ∀ k, (s'.act k).isOpen = ((s.act k).isOpen && !kdOf s x k))
    (halive : ∀ k, (s'.act k).alive = ((s.act k).alive && !kdOf s x k))
    (hother : ∀ k, k ≠ i → (s'.act k).sys = (s.act k).sys ∧ (s'.act k).cell.children = (s.act k).cell.children)
    (hisys : (s'.act i).sys = ms) (hich : (s'.act i).cell.children = as ++ bs) :
    Kills s s' i (kdOf s x) := by
  have hxm : x ∈ (s.act i).cell.children := by rw [hch]; simp
  obtain ⟨x0, xn, xpar, xpath, xhp, xal⟩ := h.chd i hi x hxm
  have hix : i < x.id := hL.par x.id xn i xpar
  have hkd : ∀ k, kdOf s x k = true ↔ (k = x.id ∨ ∃ ch, .attach ch ∈ (s.act x.id).sys ∧ ch.id = k) := by
    intro k
    simp only [kdOf, Bool.or_eq_true, carries_any, beq_iff_eq]
    exact or_congr ⟨Eq.symm, Eq.symm⟩ Iff.rfl
  have hcar : ∀ k, (∃ ch, .attach ch ∈ (s.act x.id).sys ∧ ch.id = k) →
      0 < k ∧ k < s.n ∧ (s.act k).cell.hasParent = false ∧ (s.act k).parent = some x.id := by
    rintro k ⟨ch, hc, rfl⟩
    exact hL.att x.id xn ch hc
  have hnd := h.chNd i hi
  rw [hch, List.nodup_append, List.nodup_cons] at hnd
  have hxnot : x ∉ as ++ bs := by
    intro hx
    rcases List.mem_append.1 hx with hx | hx
    · exact hnd.2.2 x hx x (by simp) rfl
    · exact hnd.2.1.1 hx
  have hchkd : ∀ p < s.n, ∀ ch ∈ (s'.act p).cell.children, kdOf s x ch.id = false := by
    intro p hp ch hc
    have hc0 : ch ∈ (s.act p).cell.children := by
      by_cases hpi : p = i
      · subst hpi; rw [hich] at hc; rw [hch]; simp at hc ⊢; rcases hc with hc | hc <;> simp [hc]
      · rwa [(hother p hpi).2] at hc
    obtain ⟨c0, cn, cpar, cpath, chp, cal⟩ := h.chd p hp ch hc0
    rw [← Bool.not_eq_true, hkd]
    rintro (hx | hx)
    · rw [hx, xpar] at cpar
      simp at cpar
      subst cpar
      rw [hx, xpath] at cpath
      have : ch = x := by cases ch; cases x; simp_all
      subst this
      rw [hich] at hc
      exact hxnot hc
    · rw [(hcar _ hx).2.2.1] at chp; simp at chp
  constructor
  case n => exact hn
  case same => exact hsame
  case opn => exact hopn
  case alive => exact halive
  case other => exact hother
  case sys =>
    intro m hmd _
    rw [hisys, hm]
    simp [hmd]
  case attsub => intro m hx; rw [hisys] at hx; rw [hm]; simp [hx]
  case chsub => intro ch hc; rw [hich] at hc; rw [hch]; simp at hc ⊢; rcases hc with hc | hc <;> simp [hc]
  case chNd =>
    rw [hich, List.nodup_append]
    exact ⟨hnd.1, hnd.2.1.2, fun a ha b hb => hnd.2.2 a ha b (by simp [hb])⟩
  case chkd => exact hchkd
  case chkeep =>
    intro ch hc hk
    rw [hch] at hc
    rw [hich]
    have hne : ch ≠ x := by
      rintro rfl
      rw [← Bool.not_eq_true, hkd] at hk
      exact hk (.inl rfl)
    simp at hc ⊢
    rcases hc with hc | hc | hc
    · exact .inl hc
    · exact absurd hc hne
    · exact .inr hc
  case att =>
    intro p hp ch hc ha
    have hc0 : .attach ch ∈ (s.act p).sys := by
      by_cases hpi : p = i
      · subst hpi; rw [hisys] at hc; rw [hm]; simp [hc]
      · rwa [(hother p hpi).1] at hc
    obtain ⟨a1, a2, a3, a4⟩ := hL.att p hp ch hc0
    rw [← Bool.not_eq_true, hkd]
    rintro (hx | hx)
    · rw [hx, xhp] at a3; simp at a3
    · have := (hcar _ hx).2.2.2
      rw [a4] at this
      simp at this
      subst this
      rw [halive] at ha
      simp [kdOf] at ha
  case pend =>
    intro j hj h0 hp ha hk p hpp
    obtain ⟨u1, u2, u3, u4, u5, u6, u7, u8⟩ := h.pend j hj h0 hp ha p hpp
    rw [← Bool.not_eq_true, hkd] at hk ⊢
    rintro (hx | hx)
    · subst hx
      exact hk (.inr ⟨_, u1, rfl⟩)
    · obtain ⟨p0, pn, php, ppar⟩ := hcar _ hx
      have pal : (s.act p).alive = true := u2
      obtain ⟨-, -, -, -, -, -, -, w8⟩ := h.pend p pn p0 php pal _ ppar
      have := w8 _ u1
      simp [isWatchMsg] at this
  case nokill =>
    rw [← Bool.not_eq_true, hkd]
    rintro (hx | hx)
    · omega
    · obtain ⟨-, -, -, ipar⟩ := hcar _ hx
      have := hL.par i hi _ ipar
      omega
  case leaf =>
    intro k hk hkd' hko
    rcases (hkd k).1 hkd' with hx | hx
    · rw [hx, hxo] at hko; simp at hko
    · obtain ⟨k0, kn, khp, kpar⟩ := hcar _ hx
      have kal : (s.act k).alive = true := by
        cases hxx : (s.act k).alive with
        | true => rfl
        | false => have := h.dead k kn hxx; rw [hko] at this; simp at this
      have hki : k ≠ i := by
        rintro rfl
        have := hL.par k kn _ kpar
        omega
      rw [(hother k hki).2]
      exact (h.pend k kn k0 khp kal _ kpar).2.2.2.2.1
  case det =>
    intro _ q
    have hd := h.det i hi ho q
    rw [hm, hch, List.count_cons, List.countP_append, List.countP_cons] at hd
    rw [hisys, hich, List.countP_append]
    simp only [hxo, hxp, Bool.not_false, Bool.and_true] at hd
    by_cases hq : d = q
    · subst hq; simp at hd ⊢; omega
    · have : (Msg.detach d == Msg.detach q) = false := by simpa using hq
      simp only [this, hq] at hd
      simp at hd ⊢
      omega

/-- What `detach d` finds. -/
theorem detach_finds (s : St) (i d : Nat) (ms : List Msg) (h : GInv s) (hi : i < s.n) (ho : (s.act i).isOpen = true)
    (hm : (s.act i).sys = .detach d :: ms) :
    ∃ x as bs, (s.act i).cell.children = as ++ x :: bs ∧ x.path = d ∧ (s.act x.id).isOpen = false ∧
      removeChild (s.act i).cell d = ({ (s.act i).cell with children := as ++ bs }, [.destroy x]) := by
  have hd := h.det i hi ho d
  rw [hm, List.count_cons] at hd
  simp at hd
  have hpos : 0 < (s.act i).cell.children.countP (fun ch => decide (ch.path = d) && !(s.act ch.id).isOpen) := by omega
  rw [List.countP_pos_iff] at hpos
  obtain ⟨y, hy, hyp⟩ := hpos
  simp at hyp
  cases hf : (s.act i).cell.children.find? (fun x => decide (x.path = d)) with
  | none =>
    rw [List.find?_eq_none] at hf
    exact absurd hyp.1 (by simpa using hf y hy)
  | some x =>
    obtain ⟨hpx, as, bs, hl, has⟩ := List.find?_eq_some_iff_append.1 hf
    simp only [decide_eq_true_eq] at hpx
    have hxm : x ∈ (s.act i).cell.children := by rw [hl]; simp
    have hxy : x = y := by
      obtain ⟨x0, xn, xpar, xpath, xhp, xal⟩ := h.chd i hi x hxm
      obtain ⟨y0, yn, ypar, ypath, yhp, yal⟩ := h.chd i hi y hy
      by_cases hid : x.id = y.id
      · cases x; cases y; simp_all
      · exfalso
        exact h.uniq _ xn _ yn hid xal yal (by rw [xpar, ypar]) (by rw [ypar]; simp) (by rw [xpath, ypath, hpx, hyp.1])
    refine ⟨x, as, bs, hl, hpx, by rw [hxy]; exact hyp.2, ?_⟩
    unfold removeChild
    rw [hf]
    simp only
    rw [hl, List.eraseP_append_right _ (by simpa using has)]
    simp [hpx]

theorem GInv_detach (s : St) (i d : Nat) (ms : List Msg) (h : GInv s) (hL : LInv s) (hi : i < s.n) (ho : (s.act i).isOpen = true)
    (hm : (s.act i).sys = .detach d :: ms) :
    GInv (procMsg s i (.detach d) ms (s.act i).usr) ∧
      (s.ub = false → (procMsg s i (.detach d) ms (s.act i).usr).ub = false) := by
  obtain ⟨x, as, bs, hch, hxp, hxo, hrm⟩ := detach_finds s i d ms h hi ho hm
  have hxm : x ∈ (s.act i).cell.children := by rw [hch]; simp
  obtain ⟨x0, xn, xpar, xpath, xhp, xal⟩ := h.chd i hi x hxm
  have hix : i < x.id := hL.par x.id xn i xpar
  have hia : (s.act i).alive = true := by
    cases hx : (s.act i).alive with
    | true => rfl
    | false => have := h.dead i hi hx; rw [ho] at this; simp at this
  have hkl : ∀ k, killed (mid s i (.detach d) ms (s.act i).usr) [.destroy x] k = kdOf s x k := by
    intro k
    simp only [killed, List.any_cons, List.any_nil, Bool.or_false, kills, kdOf]
    rw [mid_ne _ _ _ _ _ _ (by omega)]
  have hnk : kdOf s x i = false := by
    cases hk : kdOf s x i with
    | false => rfl
    | true =>
      simp only [kdOf, Bool.or_eq_true, carries_any] at hk
      rcases hk with hk | ⟨ch, hc, hk⟩
      · simp at hk; omega
      · have := hL.att x.id xn ch hc
        rw [hk] at this
        have := hL.par i hi _ this.2.2.2
        omega
  -- the state in which the child is gone
  let b : St := { n := s.n, ub := s.ub, act := fun k => if k = i then { s.act i with cell := { (s.act i).cell with children := as ++ bs }, sys := ms } else if kdOf s x k then { s.act k with alive := false, isOpen := false } else s.act k }
  have hbi : b.act i = { s.act i with cell := { (s.act i).cell with children := as ++ bs }, sys := ms } := by simp [b]
  have hbk : ∀ k, k ≠ i → b.act k = if kdOf s x k = true then { s.act k with alive := false, isOpen := false } else s.act k := by
    intro k hk; simp [b, hk]
  have hGb : GInv b := by
    apply GInv_kills h
    refine kills_detach s b i d ms x as bs h hL hi ho hm hch hxp hxo rfl ?_ ?_ ?_ ?_ ?_ ?_
    · intro k
      by_cases hk : k = i
      · subst hk; rw [hbi]; simp
      · rw [hbk k hk]; split <;> simp
    · intro k
      by_cases hk : k = i
      · subst hk; rw [hbi, hnk]; simp
      · rw [hbk k hk]; split <;> simp_all
    · intro k
      by_cases hk : k = i
      · subst hk; rw [hbi, hnk]; simp
      · rw [hbk k hk]; split <;> simp_all
    · intro k hk
      rw [hbk k hk]; split <;> simp
    · rw [hbi]
    · rw [hbi]
  have hubr : ∀ es : List Eff, (∀ e ∈ es, ∀ c, e = .destroy c → c = x) → es.any (breaks (mid s i (.detach d) ms (s.act i).usr)) = false := by
    intro es hes
    rw [List.any_eq_false]
    intro e he
    cases e with
    | destroy c =>
      have := hes _ he c rfl
      subst this
      simp [breaks, mid_ne _ _ _ _ _ _ (show c.id ≠ i by omega), hxo]
    | _ => simp [breaks]
  by_cases hcl : (s.act i).cell.stopping = true ∧ as ++ bs = []
  · have hpr : process (s.act i).cell (.detach d) = ((stopImpl { (s.act i).cell with children := as ++ bs }).1, [.destroy x] ++ (stopImpl { (s.act i).cell with children := as ++ bs }).2, true) := by
      simp only [process, hrm]
      rw [if_pos (by simp [hcl.1, hcl.2])]
    refine ⟨?_, ?_⟩
    · refine GInv_closes hGb (closes_procMsg s b i (.detach d) ms (s.act i).usr [.destroy x] _ hi ho (.inl (by simp)) hpr (by simp [isDestroy])
        (by rw [hkl, hnk]) hcl.2 ?_ hia ?_ rfl ?_ ?_ ?_ ?_)
      · intro h0
        cases hp : (s.act i).cell.hasParent with
        | true => rfl
        | false =>
          obtain ⟨p, hpp⟩ := h.parS i hi h0
          have := (h.pend i hi h0 hp hia p hpp).2.2.2.2.1
          rw [hch] at this; simp at this
      · intro h0; subst h0; exact h.root
      · rw [hbi]; simp [ho]
      · intro ch; rw [hbi]
      · intro y hy; rw [hbi]; exact hy
      · intro k hk; rw [hbk k hk, hkl]
    · intro hu
      have h2 := hubr ((process (s.act i).cell (.detach d)).2.1) (by
        rw [hpr]
        intro e he c hc
        subst hc
        simp [stopImpl] at he
        exact he)
      show (s.ub || _) = false
      rw [hu]
      exact h2
  · have hpr : process (s.act i).cell (.detach d) = ({ (s.act i).cell with children := as ++ bs }, [.destroy x], false) := by
      simp only [process, hrm]
      rw [if_neg]
      simp only [Bool.and_eq_true, List.isEmpty_iff]
      exact hcl
    have hsy : ∀ k, ([Eff.destroy x]).filterMap (sysTo (mid s i (.detach d) ms (s.act i).usr) i k) = [] := fun k => by simp [sysTo]
    have hus : ∀ k, ([Eff.destroy x]).filterMap (usrTo i k) = [] := fun k => by simp [usrTo]
    have had : ∀ k, ([Eff.destroy x]).any (adopts k) = false := fun k => by simp [adopts]
    refine ⟨?_, ?_⟩
    · apply GInv_kills h
      refine kills_detach s _ i d ms x as bs h hL hi ho hm hch hxp hxo rfl ?_ ?_ ?_ ?_ ?_ ?_
      · intro k
        rw [procMsg_act]
        simp only [deliver_hasParent, deliver_parent, deliver_path, deliver_ok, deliver_stopping, deliver_told, deliver_started,
          deliver_usr, hpr, had, hus]
        by_cases hk : k = i
        · subst hk; simp [mid_self, hpr]
        · simp [mid_ne _ _ _ _ _ _ hk]
      · intro k
        rw [procMsg_act]
        simp only [deliver_isOpen, hpr, hkl]
        by_cases hk : k = i
        · subst hk; simp [mid_self, hpr, ho]
        · simp [mid_ne _ _ _ _ _ _ hk]
      · intro k
        rw [procMsg_act]
        simp only [deliver_alive, hpr, hkl]
        by_cases hk : k = i
        · subst hk; simp [mid_self]
        · simp [mid_ne _ _ _ _ _ _ hk]
      · intro k hk
        rw [procMsg_act]
        simp [deliver_sys, hpr, hsy, mid_ne _ _ _ _ _ _ hk]
      · rw [procMsg_act]
        simp [deliver_sys, hpr, hsy, mid_self]
      · rw [procMsg_act]
        simp [mid_self, hpr]
    · intro hu
      have h2 := hubr ((process (s.act i).cell (.detach d)).2.1) (by
        rw [hpr]
        intro e he c hc
        subst hc
        simpa using he)
      show (s.ub || _) = false
      rw [hu]
      exact h2

end Verif.ActorTree
