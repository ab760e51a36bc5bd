import Verif.Param.Spec

namespace Verif.Param

open HeapList

/-! ## The code run on a history -/

/-- Read with the function for the type of the parameter. -/
def read (h : Heap) (p : Nat) : Except Err AVal :=
  match h.val p with
  | .scalar _ => do let v ← scalarRead h p; pure (.scalar v)
  | .integer _ => do let v ← integerRead h p; pure (.integer v)
  | .boolean _ => do let v ← booleanRead h p; pure (.boolean v)
  | .vector _ _ => do let v ← vectorRead h p; pure (.vector v)
  | .varVector _ _ => do let v ← varVectorRead h p; pure (.varVector v)
  | .string _ len => do let r ← stringRead h p (len + 1); pure (.string r.2.dropLast)

/-- `parameter_scalar_get` and so on (parameter.c:252-256, 298-302, 352-356, 396-400, 461-465, 531-535): clear
the flag, then read. -/
def get (fuel : Nat) (h : Heap) (p : Nat) : Except Err (Heap × AVal) := do
  let h ← changedClear fuel h p
  let v ← read h p
  pure (h, v)

def declare (fuel : Nat) (h : Heap) (p n : Nat) (id : Str) : Decl → Except Err Heap
  | .scalar j d => scalarDeclare fuel h p n id j d
  | .integer j d => integerDeclare fuel h p n id j d
  | .boolean j d => booleanDeclare fuel h p n id j d
  | .vector b k d => vectorDeclare fuel h p n id b k d
  | .varVector b j d => varVectorDeclare fuel h p n id b j d
  | .string b j d => stringDeclare fuel h p n id b j d

def set (fuel : Nat) (h : Heap) (p : Nat) : AVal → Except Err Heap
  | .scalar v => scalarSet fuel h p v
  | .integer v => integerSet fuel h p v
  | .boolean v => booleanSet fuel h p v
  | .vector v => vectorSet fuel h p v
  | .varVector v => varVectorSet fuel h p v
  | .string s => stringSet fuel h p s

def step (fuel : Nat) (h : Heap) : Op → Except Err Heap
  | .declNs n parent id => .ok (nsDeclare h n parent id)
  | .declPar p n id d => declare fuel h p n id d
  | .set p v => set fuel h p v
  | .get p => do let r ← get fuel h p; pure r.1

def run (fuel : Nat) (h0 : Heap) : List Op → Except Err Heap
  | [] => .ok h0
  | op :: l => do
    let h ← run fuel h0 l
    step fuel h op

/-! ## Facts about histories -/

theorem subs_nss {n : Nat} : ∀ {l : List Op} {m : Nat}, m ∈ subs n l → m ∈ nss l
  | [], _, h => by simp [subs] at h
  | .declNs k parent id :: l, m, h => by
    simp only [subs] at h
    simp only [nss, List.mem_cons]
    split at h
    · rcases List.mem_cons.mp h with h | h
      · exact Or.inl h
      · exact Or.inr (subs_nss h)
    · exact Or.inr (subs_nss h)
  | .declPar _ _ _ _ :: l, _, h => subs_nss (l := l) h
  | .set _ _ :: l, _, h => subs_nss (l := l) h
  | .get _ :: l, _, h => subs_nss (l := l) h

theorem parsIn_pars {n : Nat} : ∀ {l : List Op} {m : Nat}, m ∈ parsIn n l → m ∈ pars l
  | [], _, h => by simp [parsIn] at h
  | .declPar k q id d :: l, m, h => by
    simp only [parsIn] at h
    simp only [pars, List.mem_cons]
    split at h
    · rcases List.mem_cons.mp h with h | h
      · exact Or.inl h
      · exact Or.inr (parsIn_pars h)
    · exact Or.inr (parsIn_pars h)
  | .declNs _ _ _ :: l, _, h => parsIn_pars (l := l) h
  | .set _ _ :: l, _, h => parsIn_pars (l := l) h
  | .get _ :: l, _, h => parsIn_pars (l := l) h

theorem subs_length (n : Nat) : ∀ l : List Op, (subs n l).length ≤ l.length
  | [] => by simp [subs]
  | .declNs _ _ _ :: l => by
    simp only [subs, List.length_cons]; split
    · simp only [List.length_cons]; have := subs_length n l; omega
    · have := subs_length n l; omega
  | .declPar _ _ _ _ :: l => by simp only [subs, List.length_cons]; have := subs_length n l; omega
  | .set _ _ :: l => by simp only [subs, List.length_cons]; have := subs_length n l; omega
  | .get _ :: l => by simp only [subs, List.length_cons]; have := subs_length n l; omega

theorem parsIn_length (n : Nat) : ∀ l : List Op, (parsIn n l).length ≤ l.length
  | [] => by simp [parsIn]
  | .declPar _ _ _ _ :: l => by
    simp only [parsIn, List.length_cons]; split
    · simp only [List.length_cons]; have := parsIn_length n l; omega
    · have := parsIn_length n l; omega
  | .declNs _ _ _ :: l => by simp only [parsIn, List.length_cons]; have := parsIn_length n l; omega
  | .set _ _ :: l => by simp only [parsIn, List.length_cons]; have := parsIn_length n l; omega
  | .get _ :: l => by simp only [parsIn, List.length_cons]; have := parsIn_length n l; omega

theorem chain_length (n : Nat) : ∀ l : List Op, (chain n l).length ≤ l.length
  | [] => by simp [chain]
  | .declNs m parent _ :: l => by
    simp only [chain]
    split
    · cases parent with
      | none => simp
      | some q => simp only [List.length_cons]; have := chain_length q l; omega
    · simp only [List.length_cons]; have := chain_length n l; omega
  | .declPar _ _ _ _ :: l => by simp only [chain, List.length_cons]; have := chain_length n l; omega
  | .set _ _ :: l => by simp only [chain, List.length_cons]; have := chain_length n l; omega
  | .get _ :: l => by simp only [chain, List.length_cons]; have := chain_length n l; omega
termination_by l => l.length

theorem chain_nss : ∀ {l : List Op} {n m : Nat}, m ∈ chain n l → m ∈ nss l
  | [], _, _, h => by simp [chain] at h
  | .declNs k parent id :: l, n, m, h => by
    simp only [chain] at h
    simp only [nss, List.mem_cons]
    split at h
    · rename_i hk
      rcases List.mem_cons.mp h with h | h
      · exact Or.inl (h.trans hk.symm)
      · cases parent with
        | none => cases h
        | some q => exact Or.inr (chain_nss (l := l) h)
    · exact Or.inr (chain_nss (l := l) h)
  | .declPar _ _ _ _ :: l, _, _, h => chain_nss (l := l) h
  | .set _ _ :: l, _, _, h => chain_nss (l := l) h
  | .get _ :: l, _, _, h => chain_nss (l := l) h

theorem chain_nodup : ∀ {l : List Op} {n : Nat}, Proper l → (chain n l).Nodup
  | [], _, _ => by simp [chain]
  | .declNs k parent id :: l, n, hp => by
    obtain ⟨h1, h2, _, h3⟩ := hp
    simp only [chain]
    split
    · rename_i hk
      subst hk
      cases parent with
      | none => simp
      | some q =>
        refine List.nodup_cons.mpr ⟨fun h => h1 (chain_nss h), chain_nodup h3⟩
    · exact chain_nodup h3
  | .declPar _ _ _ _ :: l, _, hp => chain_nodup (l := l) hp.2.2.2.2
  | .set _ _ :: l, _, hp => chain_nodup (l := l) hp.2
  | .get _ :: l, _, hp => chain_nodup (l := l) hp.2

theorem nsOf_nss : ∀ {l : List Op} {p : Nat}, Proper l → p ∈ pars l → nsOf p l ∈ nss l
  | [], _, _, h => by simp [pars] at h
  | .declPar q n id d :: l, p, hp, h => by
    obtain ⟨_, h1, _, _, h3⟩ := hp
    simp only [nsOf, nss]
    split
    · exact h1
    · rename_i hne
      rcases List.mem_cons.mp h with h | h
      · exact absurd h.symm hne
      · exact nsOf_nss h3 h
  | .declNs _ _ _ :: l, _, hp, h => List.mem_cons_of_mem _ (nsOf_nss (l := l) hp.2.2.2 h)
  | .set _ _ :: l, _, hp, h => nsOf_nss (l := l) hp.2 h
  | .get _ :: l, _, hp, h => nsOf_nss (l := l) hp.2 h

theorem declOf_pars : ∀ {l : List Op} {p : Nat} {d : Decl}, declOf p l = some d → p ∈ pars l
  | [], _, _, h => by simp [declOf] at h
  | .declPar q n id d :: l, p, _, h => by
    simp only [declOf] at h
    simp only [pars, List.mem_cons]
    split at h
    · rename_i hq; exact Or.inl hq.symm
    · exact Or.inr (declOf_pars h)
  | .declNs _ _ _ :: l, _, _, h => declOf_pars (l := l) h
  | .set _ _ :: l, _, _, h => declOf_pars (l := l) h
  | .get _ :: l, _, _, h => declOf_pars (l := l) h

theorem pars_declOf : ∀ {l : List Op} {p : Nat}, p ∈ pars l → ∃ d, declOf p l = some d
  | [], _, h => by simp [pars] at h
  | .declPar q n id d :: l, p, h => by
    simp only [declOf]
    split
    · exact ⟨_, rfl⟩
    · rename_i hne
      rcases List.mem_cons.mp h with h | h
      · exact absurd h.symm hne
      · exact pars_declOf h
  | .declNs _ _ _ :: l, _, h => pars_declOf (l := l) h
  | .set _ _ :: l, _, h => pars_declOf (l := l) h
  | .get _ :: l, _, h => pars_declOf (l := l) h

theorem valueOf_pars : ∀ {l : List Op} {p : Nat}, Proper l → valueOf p l ≠ none → p ∈ pars l
  | [], _, _, h => absurd rfl h
  | .declPar q n id d :: l, p, hp, h => by
    simp only [valueOf] at h
    simp only [pars, List.mem_cons]
    split at h
    · rename_i hq; exact Or.inl hq.symm
    · exact Or.inr (valueOf_pars hp.2.2.2.2 h)
  | .declNs _ _ _ :: l, _, hp, h => valueOf_pars (l := l) hp.2.2.2 h
  | .set q v :: l, p, hp, h => by
    simp only [valueOf] at h
    split at h
    · rename_i hq
      obtain ⟨⟨d, hd, _⟩, _⟩ := hp
      rw [← hq]; exact declOf_pars (l := l) hd
    · exact valueOf_pars (l := l) hp.2 h
  | .get _ :: l, _, hp, h => valueOf_pars (l := l) hp.2 h

theorem changed_valueOf : ∀ {l : List Op} {p : Nat}, changedOf p l = true → valueOf p l ≠ none
  | [], _, h => by simp [changedOf] at h
  | .declPar q n id d :: l, p, h => by
    simp only [changedOf] at h
    simp only [valueOf]
    split at h
    · rename_i hq; rw [if_pos hq]; intro hn; rw [hn] at h; simp at h
    · rename_i hq; rw [if_neg hq]; exact changed_valueOf h
  | .declNs _ _ _ :: l, _, h => changed_valueOf (l := l) h
  | .set q v :: l, p, h => by
    simp only [changedOf] at h
    simp only [valueOf]
    split
    · simp
    · rename_i hq; rw [if_neg hq] at h; exact changed_valueOf h
  | .get q :: l, p, h => by
    simp only [changedOf] at h
    simp only [valueOf]
    split at h
    · cases h
    · exact changed_valueOf h

theorem pars_nodup : ∀ {l : List Op}, Proper l → (pars l).Nodup
  | [], _ => by simp [pars]
  | .declPar _ _ _ _ :: l, hp => List.nodup_cons.mpr ⟨hp.1, pars_nodup hp.2.2.2.2⟩
  | .declNs _ _ _ :: l, hp => pars_nodup (l := l) hp.2.2.2
  | .set _ _ :: l, hp => pars_nodup (l := l) hp.2
  | .get _ :: l, hp => pars_nodup (l := l) hp.2

/-! ## Loops -/

theorem addUp_spec {parent : Nat → Option Nat} {d : BitVec 32} : ∀ (ns : List Nat) (fuel : Nat) (p : Option Nat) (c : Nat → BitVec 32),
    IsList parent p ns → ns.Nodup → ns.length ≤ fuel →
    addUp parent d fuel p c = .ok (fun n => if n ∈ ns then c n + d else c n)
  | [], fuel, p, c, h, _, _ => by
    simp only [IsList] at h; subst h
    cases fuel <;> simp [addUp]
  | n :: ns, fuel, p, c, h, hn, hf => by
    obtain ⟨rfl, h⟩ := h
    obtain ⟨h1, h2⟩ := List.nodup_cons.mp hn
    cases fuel with
    | zero => simp at hf
    | succ fuel =>
      simp only [addUp]
      rw [addUp_spec ns fuel _ _ h h2 (by simpa using hf)]
      congr 1
      funext m
      by_cases hm : m = n
      · subst hm; simp [h1, upd_self]
      · simp [hm, upd_ne _ _ hm]

theorem changedSet_spec {fuel : Nat} {h : Heap} {p : Nat} {ns : List Nat} (hl : IsList h.parent (some (h.parNs p)) ns)
    (hn : ns.Nodup) (hf : ns.length ≤ fuel) (hd : h.changed p = true → h.defined p = true) :
    changedSet fuel h p = .ok { h with
      changed := upd h.changed p true, defined := upd h.defined p true,
      cnt := fun n => if h.changed p = false ∧ n ∈ ns then h.cnt n + 1 else h.cnt n } := by
  unfold changedSet
  cases hc : h.changed p with
  | true =>
    have h1 : (fun n => if true = false ∧ n ∈ ns then h.cnt n + 1 else h.cnt n) = h.cnt := by funext n; simp
    have h2 : upd h.defined p true = h.defined := by
      funext q
      by_cases hq : q = p
      · subst hq; rw [upd_self, hd hc]
      · rw [upd_ne _ _ hq]
    simp only [if_true]
    rw [h1, h2]
  | false =>
    simp only [Bool.false_eq_true, if_false, addUp_spec ns fuel _ _ hl hn hf, bind, Except.bind, pure, Except.pure, true_and]

theorem changedClear_spec {fuel : Nat} {h : Heap} {p : Nat} {ns : List Nat} (hl : IsList h.parent (some (h.parNs p)) ns)
    (hn : ns.Nodup) (hf : ns.length ≤ fuel) :
    changedClear fuel h p = .ok { h with
      changed := upd h.changed p false,
      cnt := fun n => if h.changed p = true ∧ n ∈ ns then h.cnt n + -1 else h.cnt n } := by
  unfold changedClear
  cases hc : h.changed p with
  | false =>
    have h1 : (fun n => if false = true ∧ n ∈ ns then h.cnt n + -1 else h.cnt n) = h.cnt := by funext n; simp
    simp only [Bool.not_false, if_true]
    rw [h1]
  | true =>
    simp only [Bool.not_true, Bool.false_eq_true, if_false, addUp_spec ns fuel _ _ hl hn hf, bind, Except.bind, pure, Except.pure, true_and]

theorem countP_flip {f g : Nat → Bool} {p : Nat} (hne : ∀ q, q ≠ p → f q = g q) (hf : f p = false) (hg : g p = true) :
    ∀ {l : List Nat}, l.Nodup → p ∈ l → l.countP g = l.countP f + 1
  | [], _, h => by cases h
  | q :: l, hn, h => by
    obtain ⟨h1, h2⟩ := List.nodup_cons.mp hn
    by_cases hq : q = p
    · subst hq
      have : l.countP g = l.countP f := by
        apply List.countP_congr
        intro x hx
        have : x ≠ q := by rintro rfl; exact h1 hx
        rw [hne x this]
      simp [List.countP_cons, hf, hg, this]
    · have hm : p ∈ l := by
        rcases List.mem_cons.mp h with h | h
        · exact absurd h.symm hq
        · exact h
      rw [List.countP_cons, List.countP_cons, countP_flip hne hf hg h2 hm, hne q hq]
      omega

/-! ## Invariant -/

/-- Number of changed parameters in and below a namespace. -/
def count (l : List Op) (n : Nat) : Nat := (pars l).countP (fun p => changedOf p l && decide (n ∈ chain (nsOf p l) l))

def valOK (d : Decl) (v : Option AVal) (x : Val) : Prop :=
  match d, x with
  | .scalar _ _, .scalar w => ∀ a, v = some a → a = .scalar w
  | .integer _ _, .integer w => ∀ a, v = some a → a = .integer w
  | .boolean _ _, .boolean w => ∀ a, v = some a → a = .boolean w
  | .vector b k _, .vector buf dim => dim = k ∧ buf.length = b.length ∧ dim ≤ buf.length ∧ ∀ a, v = some a → a = .vector (buf.take dim)
  | .varVector b _ _, .varVector buf dim => buf.length = b.length ∧
      ∀ a, v = some a → dim ≤ buf.length ∧ a = .varVector (buf.take dim)
  | .string b _ _, .string buf len => buf.length = b.length ∧
      ∀ a, v = some a → len ≤ buf.length ∧ a = .string (buf.take len)
  | _, _ => False

structure Tree (l : List Op) (h : Heap) : Prop where
  nsId : ∀ n ∈ nss l, h.nsId n = nsIdOf n l
  parent : ∀ n ∈ nss l, IsList h.parent (some n) (chain n l)
  subs : ∀ n ∈ nss l, IsList h.nsNext (h.sub n) (subs n l)
  plist : ∀ n ∈ nss l, IsList h.parNext (h.plist n) (parsIn n l)
  parId : ∀ p ∈ pars l, h.parId p = parIdOf p l
  parNs : ∀ p ∈ pars l, h.parNs p = nsOf p l

structure Inv (l : List Op) (h : Heap) : Prop where
  tree : Tree l h
  changed : ∀ p ∈ pars l, h.changed p = changedOf p l
  defined : ∀ p ∈ pars l, h.defined p = (valueOf p l).isSome
  val : ∀ p d, declOf p l = some d → valOK d (valueOf p l) (h.val p)
  cnt : ∀ n ∈ nss l, h.cnt n = BitVec.ofNat 32 (count l n)

theorem Inv.chain {l : List Op} {h : Heap} (hi : Inv l h) (hp : Proper l) {p : Nat} (hm : p ∈ pars l) :
    IsList h.parent (some (h.parNs p)) (chain (nsOf p l) l) := by
  rw [hi.tree.parNs p hm]
  exact hi.tree.parent _ (nsOf_nss hp hm)

/-- `changedSet` when the value has just been written. -/
theorem set_inv {fuel : Nat} {l : List Op} {h : Heap} {p : Nat} {v : AVal} {d : Decl} {x : Val} (hi : Inv l h) (hp : Proper l)
    (hd : declOf p l = some d) (hf : l.length ≤ fuel) (hx : valOK d (some v) x) :
    ∃ h', changedSet fuel (setVal h p x) p = .ok h' ∧ Inv (.set p v :: l) h' := by
  have hm := declOf_pars hd
  have hs := changedSet_spec (fuel := fuel) (h := setVal h p x) (p := p) (hi.chain hp hm) (chain_nodup hp)
    (Nat.le_trans (chain_length _ _) hf) (by
      intro hc
      simp only [setVal] at hc ⊢
      rw [hi.changed p hm] at hc
      rw [hi.defined p hm]
      exact Option.isSome_iff_ne_none.mpr (changed_valueOf hc))
  refine ⟨_, hs, ?_⟩
  constructor
  · exact ⟨hi.tree.nsId, hi.tree.parent, hi.tree.subs, hi.tree.plist, hi.tree.parId, hi.tree.parNs⟩
  · intro q hq
    simp only [changedOf, setVal]
    by_cases hqp : p = q
    · subst hqp; simp [upd_self]
    · rw [if_neg hqp, upd_ne _ _ (Ne.symm hqp)]; exact hi.changed q hq
  · intro q hq
    simp only [valueOf, setVal]
    by_cases hqp : p = q
    · subst hqp; simp [upd_self]
    · rw [if_neg hqp, upd_ne _ _ (Ne.symm hqp)]; exact hi.defined q hq
  · intro q d' hd'
    simp only [valueOf, setVal]
    by_cases hqp : p = q
    · subst hqp
      have : d' = d := by simp only [declOf] at hd'; rw [hd] at hd'; injection hd' with hd'; exact hd'.symm
      subst this
      simp only [if_true, upd_self]; exact hx
    · rw [if_neg hqp, upd_ne _ _ (Ne.symm hqp)]; exact hi.val q d' hd'
  · intro n hn
    have hc := hi.cnt n hn
    have hchg : (setVal h p x).changed p = changedOf p l := hi.changed p hm
    show (if (setVal h p x).changed p = false ∧ n ∈ Param.chain (nsOf p l) l then h.cnt n + 1 else h.cnt n) = _
    rw [hchg]
    split
    · rename_i h1
      rw [hc]
      have : count (.set p v :: l) n = count l n + 1 := by
        refine countP_flip (l := pars l) (p := p) ?_ ?_ ?_ (pars_nodup hp) hm
        · intro q hq
          simp only [changedOf, if_neg (Ne.symm hq)]; rfl
        · simp [h1.1]
        · simp only [changedOf, if_true, chain, nsOf, Bool.true_and]; exact decide_eq_true h1.2
      rw [this]
      simp [BitVec.ofNat_add]
    · rename_i h1
      rw [hc]
      congr 1
      apply List.countP_congr
      intro q _
      simp only [changedOf, nsOf, chain]
      by_cases hqp : p = q
      · subst hqp
        simp only [if_true]
        cases hch : changedOf p l with
        | true => rfl
        | false =>
          have : n ∉ Param.chain (nsOf p l) l := fun hx => h1 ⟨hch, hx⟩
          simp [this]
      · rw [if_neg hqp]; exact Iff.rfl

theorem clear_inv {fuel : Nat} {l : List Op} {h : Heap} {p : Nat} (hi : Inv l h) (hp : Proper l)
    (hm : p ∈ pars l) (hf : l.length ≤ fuel) :
    ∃ h', changedClear fuel h p = .ok h' ∧ Inv (.get p :: l) h' := by
  have hs := changedClear_spec (fuel := fuel) (h := h) (p := p) (hi.chain hp hm) (chain_nodup hp)
    (Nat.le_trans (chain_length _ _) hf)
  refine ⟨_, hs, ?_⟩
  constructor
  · exact ⟨hi.tree.nsId, hi.tree.parent, hi.tree.subs, hi.tree.plist, hi.tree.parId, hi.tree.parNs⟩
  · intro q hq
    simp only [changedOf]
    by_cases hqp : p = q
    · subst hqp; simp [upd_self]
    · rw [if_neg hqp, upd_ne _ _ (Ne.symm hqp)]; exact hi.changed q hq
  · exact hi.defined
  · exact hi.val
  · intro n hn
    have hc := hi.cnt n hn
    simp only
    rw [hi.changed p hm]
    split
    · rename_i h1
      rw [hc]
      have : count l n = count (.get p :: l) n + 1 := by
        refine countP_flip (l := pars l) (p := p) ?_ ?_ ?_ (pars_nodup hp) hm
        · intro q hq
          simp only [changedOf, if_neg (Ne.symm hq)]; rfl
        · simp [changedOf]
        · simp only [h1.1, Bool.true_and]; exact decide_eq_true h1.2
      rw [this, BitVec.ofNat_add, BitVec.add_assoc]
      have : (BitVec.ofNat 32 1 + -1 : BitVec 32) = 0 := by decide
      rw [this]; simp
    · rename_i h1
      rw [hc]
      congr 1
      apply List.countP_congr
      intro q _
      simp only [changedOf, nsOf, chain]
      by_cases hqp : p = q
      · subst hqp
        simp only [if_true]
        cases hch : changedOf p l with
        | false => simp
        | true =>
          have : n ∉ Param.chain (nsOf p l) l := fun hx => h1 ⟨hch, hx⟩
          simp [this]
      · rw [if_neg hqp]; exact Iff.rfl

theorem nsDeclare_inv {l : List Op} {h : Heap} {n : Nat} {parent : Option Nat} {id : Str} (hi : Inv l h)
    (hp : Proper (.declNs n parent id :: l)) : Inv (.declNs n parent id :: l) (nsDeclare h n parent id) := by
  obtain ⟨hnew, hpar, _, hpr⟩ := hp
  have hne : ∀ {m}, m ∈ nss l → m ≠ n := fun hm he => hnew (he ▸ hm)
  have hpne : ∀ m, parent = some m → m ≠ n := fun m hm => hne (hpar m hm)
  have hpars0 : ∀ {m}, m ∉ nss l → parsIn m l = [] := by
    intro m
    clear hi hpar hpne hne hnew
    induction l with
    | nil => intro _; rfl
    | cons op l ih =>
      intro hm
      cases op with
      | declNs k q i => exact ih hpr.2.2.2 (fun h => hm (List.mem_cons_of_mem _ h))
      | declPar p k i d =>
        simp only [parsIn]
        rw [if_neg]
        · exact ih hpr.2.2.2.2 hm
        · rintro rfl; exact hm hpr.2.1
      | set p v => exact ih hpr.2 hm
      | get p => exact ih hpr.2 hm
  have hsubs0 : ∀ {m}, m ∉ nss l → subs m l = [] := by
    intro m
    clear hi hpar hpne hne hnew hpars0
    induction l with
    | nil => intro _; rfl
    | cons op l ih =>
      intro hm
      cases op with
      | declNs k q i =>
        simp only [subs]
        rw [if_neg]
        · exact ih hpr.2.2.2 (fun h => hm (List.mem_cons_of_mem _ h))
        · rintro rfl; exact hm (List.mem_cons_of_mem _ (hpr.2.1 m rfl))
      | declPar p k i d => exact ih hpr.2.2.2.2 hm
      | set p v => exact ih hpr.2 hm
      | get p => exact ih hpr.2 hm
  have hcs : ∀ m, m ∈ nss l → n ∉ subs m l := fun m hm h => hnew (subs_nss h)
  have hcc : ∀ m, n ∉ chain m l := fun m h => hnew (chain_nss h)
  have hsub : (nsDeclare h n parent id).sub = match parent with
      | some m => upd (upd h.sub n none) m (some n)
      | none => upd h.sub n none := by
    unfold nsDeclare; cases parent <;> rfl
  have hnext : (nsDeclare h n parent id).nsNext = match parent with
      | some m => upd h.nsNext n (h.sub m)
      | none => upd h.nsNext n none := by
    unfold nsDeclare; cases parent with
    | none => rfl
    | some m => simp only [upd_ne _ _ (hpne m rfl)]
  have hrest : (nsDeclare h n parent id).nsId = upd h.nsId n id ∧ (nsDeclare h n parent id).cnt = upd h.cnt n 0 ∧
      (nsDeclare h n parent id).parent = upd h.parent n parent ∧ (nsDeclare h n parent id).plist = upd h.plist n none ∧
      (nsDeclare h n parent id).parId = h.parId ∧ (nsDeclare h n parent id).parNs = h.parNs ∧
      (nsDeclare h n parent id).parNext = h.parNext ∧ (nsDeclare h n parent id).changed = h.changed ∧
      (nsDeclare h n parent id).defined = h.defined ∧ (nsDeclare h n parent id).val = h.val := by
    unfold nsDeclare; cases parent <;> simp
  obtain ⟨r1, r2, r3, r4, r5, r6, r7, r8, r9, r10⟩ := hrest
  have hparent : ∀ m, m ∈ nss l → IsList (upd h.parent n parent) (some m) (chain m l) :=
    fun m hm => isList_upd _ (hcc m) (hi.tree.parent m hm)
  constructor
  · constructor
    · intro m hm
      rw [r1]; simp only [nsIdOf]
      by_cases he : n = m
      · subst he; simp [upd_self]
      · rw [if_neg he, upd_ne _ _ (Ne.symm he)]
        exact hi.tree.nsId m (by simpa [nss, Ne.symm he] using hm)
    · intro m hm
      rw [r3]; simp only [chain]
      by_cases he : n = m
      · subst he
        rw [if_pos rfl]
        refine ⟨rfl, ?_⟩
        rw [upd_self]
        cases parent with
        | none => rfl
        | some q => exact hparent q (hpar q rfl)
      · rw [if_neg he]
        exact hparent m (by simpa [nss, Ne.symm he] using hm)
    · intro m hm
      rw [hsub, hnext]; simp only [subs]
      by_cases he : n = m
      · subst he
        rw [hsubs0 hnew]
        cases parent with
        | none => simp [upd_self, IsList]
        | some q =>
          have hqn := hpne q rfl
          rw [if_neg (by intro h; injection h with h; exact hqn h)]
          simp [upd_ne _ _ (Ne.symm hqn), upd_self, IsList]
      · have hm' : m ∈ nss l := by simpa [nss, Ne.symm he] using hm
        cases parent with
        | none =>
          simp only [reduceCtorEq, if_false]
          rw [upd_ne _ _ (Ne.symm he)]
          exact isList_upd _ (hcs m hm') (hi.tree.subs m hm')
        | some q =>
          simp only [Option.some.injEq]
          by_cases hqm : q = m
          · subst hqm
            simp only [if_true, upd_self]
            refine ⟨rfl, ?_⟩
            rw [upd_self]
            exact isList_upd _ (hcs q hm') (hi.tree.subs q hm')
          · rw [if_neg hqm, upd_ne _ _ (Ne.symm hqm), upd_ne _ _ (Ne.symm he)]
            exact isList_upd _ (hcs m hm') (hi.tree.subs m hm')
    · intro m hm
      rw [r4, r7]
      show IsList h.parNext (upd h.plist n none m) (parsIn m l)
      by_cases he : n = m
      · subst he; rw [upd_self, hpars0 hnew]; rfl
      · rw [upd_ne _ _ (Ne.symm he)]
        exact hi.tree.plist m (by simpa [nss, Ne.symm he] using hm)
    · rw [r5]; exact hi.tree.parId
    · rw [r6]; exact hi.tree.parNs
  · rw [r8]; exact hi.changed
  · rw [r9]; exact hi.defined
  · rw [r10]; exact hi.val
  · intro m hm
    rw [r2]
    have hq : ∀ q ∈ pars l, nsOf q l ∈ nss l := fun q h => nsOf_nss hpr h
    by_cases he : n = m
    · subst he
      rw [upd_self]
      have : count (.declNs n parent id :: l) n = 0 := by
        apply List.countP_eq_zero.mpr
        intro q hqm
        have hne' : n ≠ nsOf q l := Ne.symm (hne (hq q hqm))
        simp only [changedOf, nsOf, chain]
        simp [hcc, hne']
      rw [this]; rfl
    · rw [upd_ne _ _ (Ne.symm he), hi.cnt m (by simpa [nss, Ne.symm he] using hm)]
      congr 1
      apply List.countP_congr
      intro q hqm
      have hne' : n ≠ nsOf q l := Ne.symm (hne (hq q hqm))
      simp only [changedOf, nsOf, chain]
      simp only [hne', if_false]

/-- `_parameter_declare` for a declaration without default. -/
theorem parDeclare_inv {l : List Op} {h : Heap} {p n : Nat} {id : Str} {d : Decl} {x : Val} (hi : Inv l h)
    (hp : Proper (.declPar p n id d :: l)) (hd : d.default = none) (hx : valOK d none x) :
    Inv (.declPar p n id d :: l) (parDeclare (setVal h p x) p n id) := by
  obtain ⟨hnew, hns, _, _, hpr⟩ := hp
  have hmem : ∀ {q}, q ∈ pars (.declPar p n id d :: l) → p ≠ q → q ∈ pars l := by
    intro q hq hne; simpa [pars, Ne.symm hne] using hq
  constructor
  · constructor
    · exact hi.tree.nsId
    · exact hi.tree.parent
    · exact hi.tree.subs
    · intro m hm
      simp only [parDeclare, setVal, parsIn]
      have hnp : p ∉ parsIn m l := fun h => hnew (parsIn_pars h)
      by_cases he : n = m
      · subst he
        rw [if_pos rfl, upd_self]
        refine ⟨rfl, ?_⟩
        rw [upd_self]
        exact isList_upd _ hnp (hi.tree.plist n hm)
      · rw [if_neg he, upd_ne _ _ (Ne.symm he)]
        exact isList_upd _ hnp (hi.tree.plist m hm)
    · intro q hq
      simp only [parDeclare, setVal, parIdOf]
      by_cases he : p = q
      · subst he; rw [if_pos rfl, upd_self]
      · rw [if_neg he, upd_ne _ _ (Ne.symm he)]; exact hi.tree.parId q (hmem hq he)
    · intro q hq
      simp only [parDeclare, setVal, nsOf]
      by_cases he : p = q
      · subst he; rw [if_pos rfl, upd_self]
      · rw [if_neg he, upd_ne _ _ (Ne.symm he)]; exact hi.tree.parNs q (hmem hq he)
  · intro q hq
    simp only [parDeclare, setVal, changedOf]
    by_cases he : p = q
    · subst he; rw [if_pos rfl, upd_self, hd]; rfl
    · rw [if_neg he, upd_ne _ _ (Ne.symm he)]; exact hi.changed q (hmem hq he)
  · intro q hq
    simp only [parDeclare, setVal, valueOf]
    by_cases he : p = q
    · subst he; rw [if_pos rfl, upd_self, hd]; rfl
    · rw [if_neg he, upd_ne _ _ (Ne.symm he)]; exact hi.defined q (hmem hq he)
  · intro q d' hd'
    simp only [parDeclare, setVal, valueOf]
    simp only [declOf] at hd'
    by_cases he : p = q
    · subst he; rw [if_pos rfl] at hd' ⊢; injection hd' with hd'; subst hd'; rw [upd_self, hd]; exact hx
    · rw [if_neg he] at hd' ⊢; rw [upd_ne _ _ (Ne.symm he)]; exact hi.val q d' hd'
  · intro m hm
    simp only [parDeclare, setVal]
    rw [hi.cnt m hm]
    congr 1
    simp only [count, pars]
    rw [List.countP_cons]
    have : (changedOf p (.declPar p n id d :: l) && decide (m ∈ chain (nsOf p (.declPar p n id d :: l)) (.declPar p n id d :: l))) = false := by
      simp [changedOf, hd]
    rw [this]
    simp only [Bool.false_eq_true, if_false, Nat.add_zero]
    apply List.countP_congr
    intro q hq
    have he : p ≠ q := by rintro rfl; exact hnew hq
    simp only [changedOf, nsOf, chain, if_neg he]

end Verif.Param
