import Verif.Basic

/-!
# Model of `ic-certification/src/hash_tree/mod.rs`

`Storage` (the type parameter for label / leaf bytes) is erased: labels and leaves are `Bytes`.
-/

namespace Verif

/-- `enum HashTreeNode` (hash_tree/mod.rs:313-320); `struct HashTree { root }` (mod.rs:172-176) is a
wrapper around one node and is identified with it. -/
inductive HashTree where
  | empty
  | fork (l r : HashTree)
  | labeled (label : Bytes) (t : HashTree)
  | leaf (b : Bytes)
  | pruned (h : Hash)
deriving DecidableEq, Repr

/-- `fn domain_sep` (mod.rs:382-394, 801-807): one length byte followed by the text. -/
def domainSep (s : Bytes) : Bytes := s.length.toUInt8 :: s

/-- Separator strings (mod.rs:385-391). -/
def sepEmpty : Bytes := domainSep (str "ic-hashtree-empty")
/-- (mod.rs:387) -/
def sepFork : Bytes := domainSep (str "ic-hashtree-fork")
/-- (mod.rs:388) -/
def sepLabeled : Bytes := domainSep (str "ic-hashtree-labeled")
/-- (mod.rs:389) -/
def sepLeaf : Bytes := domainSep (str "ic-hashtree-leaf")

section
variable [SHA]

/-- `pub fn fork_hash` (mod.rs:778-784). -/
def forkHash (l r : Hash) : Hash := sha (sepFork ++ l.1 ++ r.1)
/-- `pub fn leaf_hash` (mod.rs:786-791). -/
def leafHash (b : Bytes) : Hash := sha (sepLeaf ++ b)
/-- `pub fn labeled_hash` (mod.rs:793-799). -/
def labeledHash (label : Bytes) (h : Hash) : Hash := sha (sepLabeled ++ label ++ h.1)

namespace HashTree

/-- `HashTreeNode::digest` (mod.rs:396-421), reached through `HashTree::digest` (mod.rs:188-192). The
hasher updates are concatenated into the one string they feed to SHA-256. -/
def digest : HashTree → Hash
  | .empty => sha sepEmpty
  | .fork l r => sha (sepFork ++ l.digest.1 ++ r.digest.1)
  | .labeled lab t => sha (sepLabeled ++ lab ++ t.digest.1)
  | .leaf b => sha (sepLeaf ++ b)
  | .pruned h => h

end HashTree
end

/-- `enum LookupLabelResult` (mod.rs:293-310). -/
inductive LabelResult where
  | absent
  | unknown
  | less
  | greater
  | found (t : HashTree)
deriving DecidableEq, Repr

/-- `pub enum LookupResult` (mod.rs:141-156). -/
inductive LookupResult where
  | absent
  | unknown
  | found (b : Bytes)
  | error
deriving DecidableEq, Repr

/-- `pub enum SubtreeLookupResult` (mod.rs:158-170). -/
inductive SubtreeResult where
  | absent
  | unknown
  | found (t : HashTree)
deriving DecidableEq, Repr

namespace HashTree

/-- `HashTreeNode::lookup_label` (mod.rs:423-466). -/
def lookupLabel (label : Bytes) : HashTree → LabelResult
  | .labeled l t =>
    match cmpB label l with
    | .gt => .greater
    | .eq => .found t
    | .lt => .less
  | .fork l r =>
    match l.lookupLabel label with
    | .greater =>
      match r.lookupLabel label with
      | .less => .absent
      | res => res
    | .unknown =>
      match r.lookupLabel label with
      | .less => .unknown
      | res => res
    | res => res
  | .pruned _ => .unknown
  | .empty => .absent
  | .leaf _ => .absent

/-- `HashTreeNode::lookup_path` (mod.rs:476-496), through `HashTree::lookup_path` (mod.rs:194-202).
The path iterator is the list of remaining segments. -/
def lookupPath : List Bytes → HashTree → LookupResult
  | [], .leaf v => .found v
  | [], .empty => .absent
  | [], .pruned _ => .unknown
  | [], .labeled _ _ => .error
  | [], .fork _ _ => .error
  | seg :: rest, t =>
    match t.lookupLabel seg with
    | .found n => lookupPath rest n
    | .unknown => .unknown
    | .absent => .absent
    | .greater => .absent
    | .less => .absent

/-- `HashTreeNode::lookup_subtree` (mod.rs:507-525), through `HashTree::lookup_subtree` (mod.rs:206-215). -/
def lookupSubtree : List Bytes → HashTree → SubtreeResult
  | [], t => .found t
  | seg :: rest, t =>
    match t.lookupLabel seg with
    | .found n => lookupSubtree rest n
    | .unknown => .unknown
    | .absent => .absent
    | .greater => .absent
    | .less => .absent

/-- `HashTreeNode::list_paths` (mod.rs:527-541), started with the empty path (mod.rs:217-220). -/
def listPathsFrom (path : List Bytes) : HashTree → List (List Bytes)
  | .empty => []
  | .fork l r => l.listPathsFrom path ++ r.listPathsFrom path
  | .leaf _ => [path]
  | .labeled l t => t.listPathsFrom (path ++ [l])
  | .pruned _ => []

/-- `HashTree::list_paths` (mod.rs:217-220). -/
def listPaths (t : HashTree) : List (List Bytes) := t.listPathsFrom []

end HashTree
end Verif
