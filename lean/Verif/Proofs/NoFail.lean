import Verif.Proofs.SafetyE
/- `ln_normalize` returns, is undefined or runs forever; there is no other way for it to fail. -/
set_option autoImplicit false
namespace LN

/-- the computation does not fail -/
structure NF {α : Type} (x : R α) : Prop where
  ne : x ≠ .fail

theorem NF.ok {α : Type} (a : α) : NF (.ok a : R α) := ⟨fun h => by cases h⟩
theorem NF.ub {α : Type} (k : UB) : NF (.ub k : R α) := ⟨fun h => by cases h⟩
theorem NF.oof {α : Type} : NF (.oof : R α) := ⟨fun h => by cases h⟩
theorem NF.bind {α β : Type} {x : R α} {f : α → R β} (hx : NF x) (hf : ∀ a, NF (f a)) : NF (x.bind f) := by
  cases x with
  | ok a => exact hf a
  | fail => exact absurd rfl hx.ne
  | ub k => exact .ub k
  | oof => exact .oof
theorem NF.bind' {α β : Type} {x : R α} {f : α → R β} (hx : NF x) (hf : ∀ a, NF (f a)) : NF (x >>= f) := NF.bind hx hf
theorem NF.pure {α : Type} (a : α) : NF (Pure.pure a : R α) := .ok a
theorem NF.ite {α : Type} {c : Prop} [Decidable c] {x y : R α} (hx : NF x) (hy : NF y) : NF (if c then x else y) := by
  split <;> assumption

theorem addMember_nf (json : Option Obj) (k : Bytes) (v : Json) (n : Bool) : NF (addMember json k v n) := by
  unfold addMember
  split
  · exact .ub _
  · exact .ok _

theorem mergeMembers_nf : ∀ (ms : Obj) (json : Option Obj), NF (mergeMembers json ms)
  | [], json => .ok _
  | (k, v) :: tl, json => by
    unfold mergeMembers
    exact .bind (addMember_nf ..) fun j => mergeMembers_nf tl j

theorem fixJSON_nf (json : Option Obj) (name : Option Bytes) (v : Option Json) : NF (fixJSON json name v) := by
  unfold fixJSON
  split
  · exact .ok _
  · split
    · split
      · exact mergeMembers_nf ..
      · exact addMember_nf ..
    · split
      · split <;> exact addMember_nf ..
      · exact addMember_nf ..

def NFRec (f : Rec) : Prop := ∀ st dag offs part json, NF (f st dag offs part json)

theorem repeatLoop_nf {f : Rec} (h : NFRec f) (pn wn : NodeId) (permit : Bool) (save : Nat) :
    ∀ (fuel : Nat) (st : Npb) (so good : Nat) (arr : Option (List Json)), NF (repeatLoop f pn wn permit save fuel st so good arr)
  | 0, _, _, _, _ => .oof
  | fuel + 1, st, so, good, arr => by
    unfold repeatLoop
    refine .bind' (h ..) fun r => ?_
    refine .ite (.ite (.pure _) (.pure _)) ?_
    refine .bind' (h ..) fun w => ?_
    exact .ite (repeatLoop_nf h pn wn permit save fuel _ _ _ _) (.pure _)

theorem attempt_nf {α : Type} (x : R α) : NF x.attempt := by
  cases x <;> exact ⟨fun h => by cases h⟩

theorem tryParser_nf {f : Rec} (h : NFRec f) (env : Env) (ctx : Ctx) (s : Bytes) (fuel : Nat) (st : Npb) (offs : Nat) (p : Parser) :
    NF (tryParser env ctx s f fuel st offs p) := by
  unfold tryParser
  split
  · split
    · exact .ub _
    · exact .bind' (h ..) fun r => .ite (.pure _) (.pure _)
  · split
    · exact .ub _
    · exact .bind' (repeatLoop_nf h ..) fun r => .pure _
  · exact .bind' (attempt_nf _) fun r => .pure _

theorem tryLoop_nf {f : Rec} (h : NFRec f) (env : Env) (ctx : Ctx) (s : Bytes) (fuel : Nat) (dag : NodeId) (offs : Nat) (part : Bool) :
    ∀ (ps : List Parser) (st : Npb) (pt : Nat) (json : Option Obj), NF (tryLoop env ctx s f fuel dag offs part ps st pt json)
  | [], _, _, _ => .ok _
  | p :: ps, st, pt, json => by
    unfold tryLoop
    refine .bind' (tryParser_nf h ..) fun r => ?_
    obtain ⟨st', res⟩ := r
    cases res with
    | none => exact tryLoop_nf h env ctx s fuel dag offs part ps _ _ _
    | some x =>
      obtain ⟨no, v⟩ := x
      refine .bind' (h ..) fun sub => ?_
      refine .ite (.bind' (fixJSON_nf ..) fun j => .pure _) ?_
      exact tryLoop_nf h env ctx s fuel dag offs part ps _ _ _

theorem normRec_nf (env : Env) (ctx : Ctx) (s : Bytes) : ∀ fuel, NFRec (normRec env ctx s fuel)
  | 0 => fun _ _ _ _ _ => .oof
  | n + 1 => fun st dag offs part json => by
    unfold normRec normStep
    exact .bind' (tryLoop_nf (normRec_nf env ctx s n) ..) fun r => .ite (.pure _) (.pure _)

theorem applyOps_nf : ∀ (ops : List AnnotOp) (o : Obj), NF (applyOps ops o)
  | [], o => .ok _
  | op :: ops, o => by
    unfold applyOps
    split
    · split
      · exact applyOps_nf ops _
      · exact .ub _
    · exact applyOps_nf ops _

theorem annotate_nf (as : List Annot) (o : Obj) (tags : List Bytes) : NF (annotate as o tags) := by
  unfold annotate
  have : ∀ (l : List Bytes) (x : R Obj), NF x → NF (l.foldl (fun acc t => acc.bind fun o => annotateTag as t o) x) := by
    intro l
    induction l with
    | nil => exact fun x h => h
    | cons t l ih =>
      intro x hx
      refine ih _ (.bind hx fun o => ?_)
      unfold annotateTag
      split
      · exact .ok _
      · exact applyOps_nf ..
  exact this _ _ (.ok _)

theorem finishMatch_nf (ctx : Ctx) (s rule : Bytes) (e : NodeId) (o : Obj) : NF (finishMatch ctx s rule e o) := by
  unfold finishMatch
  refine .bind ?_ fun o => ?_
  · unfold addTags
    split
    · exact .ok _
    · exact annotate_nf ..
  · unfold addRuleMetadata
    refine .bind ?_ fun mr => .bind ?_ fun mr => ?_
    · unfold metaMockup
      refine .ite (.bind ?_ fun c => .ok _) (.ok _)
      unfold strrev
      exact .ite (.ub _) (.ok _)
    · unfold metaLocation
      refine .ite ?_ (.ok _)
      split
      · exact .ub _
      · exact .ok _
    · split <;> exact .ok _

theorem normalize_nf (env : Env) (fuel : Nat) (ctx : Ctx) (stats : NodeId → Stats) (s : Bytes) (json0 : Obj) :
    normalize env fuel ctx stats s json0 ≠ .fail := by
  have hup : ∀ n o, NF (addUnparsedField s n o) := by
    intro n o
    unfold addUnparsedField
    exact .ite (.ub _) (.ok _)
  unfold normalize
  refine NF.ne (NF.bind' (normRec_nf ..) fun r => ?_)
  dsimp only
  split
  · split
    · exact .bind' (finishMatch_nf ..) fun o => .pure _
    · exact .bind' (hup ..) fun o => .pure _
  · exact .ub _
  · exact .bind' (hup ..) fun o => .pure _

end LN
