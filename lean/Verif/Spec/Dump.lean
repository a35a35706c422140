import Verif.Model.Tree
/-
What the printed form of a tree (`dumpAST`, the option `--ast`) shows (C76).
-/
namespace Spec
open CM

mutual
/-- The nodes in the order of the walk: a node that can have children comes before and after them. -/
def visits : Tree → List NodeData
  | .node d cs => if isContainer d.t then d :: (visitsList cs ++ [d]) else [d]
def visitsList : List Tree → List NodeData
  | [] => []
  | t :: ts => visits t ++ visitsList ts
end

/-- What is shown of the data of a list: everything but `tight`; no start number and the start number 0 look the same. -/
def shownList (l : ListData) : ListData := { l with tight := false, start := some (l.start.getD 0) }

/-- What is shown of a node: the others of its fields (the level of a heading, the fence of a code block, the kind of an HTML
block, and what belongs to the parser) are replaced. -/
def shownData (d : NodeData) : NodeData where
  t := d.t
  title := d.title
  info := d.info
  destination := d.destination
  isOpen := d.isOpen
  lastLineBlank := d.lastLineBlank
  sourcepos := d.sourcepos
  stringContent := d.stringContent
  literal := d.literal
  listData := d.listData.map shownList

end Spec
