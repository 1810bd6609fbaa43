import Verif.Model.Flow
/-
Projections of the node constructors of `Model/Node.lean`.
-/
namespace Spiff
variable {E : Type}

@[simp] theorem Node.val_mk (v : Val E) (s : String) (a : Ann) : (Node.mk v s a).val = v := rfl
@[simp] theorem Node.src_mk (v : Val E) (s : String) (a : Ann) : (Node.mk v s a).src = s := rfl
@[simp] theorem Node.ann_mk (v : Val E) (s : String) (a : Ann) : (Node.mk v s a).ann = a := rfl
@[simp] theorem Node.val_new (v : Val E) (s : String) : (Node.new v s).val = v := rfl
@[simp] theorem Node.val_withVal (n : Node E) (v : Val E) : (n.withVal v).val = v := rfl
@[simp] theorem Node.ann_withVal (n : Node E) (v : Val E) : (n.withVal v).ann = n.ann := rfl
@[simp] theorem Node.val_withAnn (n : Node E) (a : Ann) : (n.withAnn a).val = n.val := rfl
@[simp] theorem Node.ann_withAnn (n : Node E) (a : Ann) : (n.withAnn a).ann = a := rfl
@[simp] theorem Node.val_redirect (n : Node E) (v : Val E) (r) : (Node.redirectNode v n r).val = v := rfl
@[simp] theorem Node.val_replace (n : Node E) (v : Val E) (r) : (Node.replaceNode v n r).val = v := rfl
@[simp] theorem Node.val_merged (n : Node E) : n.mergedNode.val = n.val := rfl
@[simp] theorem Node.val_preferred (n : Node E) : n.preferredNode.val = n.val := rfl
@[simp] theorem Node.val_keyName (n : Node E) (k) : (n.keyNameNode k).val = n.val := rfl
@[simp] theorem Node.val_issue (n : Node E) (a b i) : (n.issueNode a b i).val = n.val := rfl
@[simp] theorem Node.val_undefined (n : Node E) : n.undefinedNode.val = n.val := rfl
@[simp] theorem Node.val_addFlags (n : Node E) (f) : (n.addFlags f).val = n.val := rfl
@[simp] theorem Node.val_setTag (n : Node E) (f) : (n.setTag f).val = n.val := rfl
@[simp] theorem Node.val_ite (c : Prop) [Decidable c] (a b : Node E) : (if c then a else b).val = if c then a.val else b.val := by
  split <;> rfl

@[simp] theorem val_updateNode (n : Node E) (f : Flags) (t : String) : (updateNode n f t).val = n.val := by
  simp [updateNode]

@[simp] theorem Ann.preferred_addKeyName (a : Ann) (k) : (a.addKeyName k).preferred = a.preferred := by
  unfold Ann.addKeyName; split <;> rfl
@[simp] theorem Ann.preferred_addIssue (a : Ann) (x y i) : (a.addIssue x y i).preferred = a.preferred := rfl
@[simp] theorem Ann.merged_addKeyName (a : Ann) (k) : (a.addKeyName k).merged = a.merged := by
  unfold Ann.addKeyName; split <;> rfl
@[simp] theorem Ann.merged_addIssue (a : Ann) (x y i) : (a.addIssue x y i).merged = a.merged := rfl

@[simp] theorem preferred_updateNode (n : Node E) (f : Flags) (t : String) :
    (updateNode n f t).ann.preferred = n.ann.preferred := by
  unfold updateNode; simp only; split <;> rfl
@[simp] theorem merged_updateNode (n : Node E) (f : Flags) (t : String) :
    (updateNode n f t).ann.merged = n.ann.merged := by
  unfold updateNode; simp only; split <;> rfl
end Spiff
