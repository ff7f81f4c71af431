import Verif.Graph.Build
import Verif.Graph.Draw
import Verif.Cli.Model
import Verif.Util.Model
import Verif.Fmt.Model

/-!
# Labels, options and the web page of the graph

Model of the labels in `build_graph`, of what `parse_args` does with the options and of the page of `create_d3`, all in
`ofequivalence/graph_ruleset_deps.py`.
-/

namespace OFE.Label

open OFE.Fmt OFE.Graph

/-! ### str.format with one argument -/

/-- Where the reader of a format string is (`str.format` of python): in text, behind an opening brace, behind a closing brace in text, or in a
replacement field, of which the characters read are given last first. -/
inductive Mode where
  | text
  | opened
  | closed
  | field (acc : List Char)

/-- How the fields are numbered so far (`str.format` of python). -/
inductive Numbering where
  | unknown
  | auto
  | manual
deriving DecidableEq

/-- The argument that a field names (`str.format` of python), of the call with a single argument, graph_ruleset_deps.py:381, 531, 602: the argument
itself or an exception.  Numbers and no names cannot be mixed; a second field without number is for a second argument. -/
def argOf (st : Numbering) (name : List Char) : Except PyErr Numbering :=
  if name = [] then
    match st with
    | .unknown => .ok .auto
    | .auto => .error .indexError
    | .manual => .error .valueError
  else if name.all Char.isDigit then
    if st = .auto then .error .valueError
    else if name.all (· = '0') then .ok .manual else .error .indexError
  else .error .keyError

/-- `str.format` with one argument (`val` is its `__format__`).  Simplified: fields with a conversion, an attribute, an index or with another field in
them are not modelled (`PyErr.fuel`). -/
def formatLoop (val : List Char → Except PyErr (List Char)) : Mode → Numbering → List Char → Except PyErr (List Char)
  | .text, _, [] => .ok []
  | _, _, [] => .error .valueError
  | .text, st, c :: r =>
    if c = '{' then formatLoop val .opened st r
    else if c = '}' then formatLoop val .closed st r
    else (formatLoop val .text st r).map (c :: ·)
  | .closed, st, c :: r => if c = '}' then (formatLoop val .text st r).map ('}' :: ·) else .error .valueError
  | .opened, st, c :: r =>
    if c = '{' then (formatLoop val .text st r).map ('{' :: ·)
    else if c = '}' then do
      let st' ← argOf st []
      let t ← val []
      (formatLoop val .text st' r).map (t ++ ·)
    else formatLoop val (.field [c]) st r
  | .field acc, st, c :: r =>
    if c = '}' then
      let name := acc.reverse.takeWhile (· ≠ ':')
      if acc.any (· = '{') || name.any fun c => c = '!' || c = '.' || c = '[' then .error .fuel
      else do
        let st' ← argOf st name
        let t ← val ((acc.reverse.dropWhile (· ≠ ':')).drop 1)
        (formatLoop val .text st' r).map (t ++ ·)
    else formatLoop val (.field (c :: acc)) st r

/-- `template.format(value)` -/
def formatOne (val : List Char → Except PyErr (List Char)) (template : List Char) : Except PyErr (List Char) := formatLoop val .text .unknown template

/-- `AlphaInt.__format__`, utils.py:203-213; `ext` is `int.__format__` for the specifications other than those that are written out. -/
def alphaValue (ext : List Char → Nat → Except PyErr (List Char)) (n : Nat) (spec : List Char) : Except PyErr (List Char) :=
  if spec = ['z'] then .ok (Util.alphaFormat false n)
  else if spec = ['Z'] then .ok (Util.alphaFormat true n)
  else if spec = [] ∨ spec = ['d'] then .ok (digits 10 n)
  else if spec = ['x'] then .ok (digits 16 n)
  else ext spec n

/-- `args.node_label.format(AlphaInt(i))` and `args.group_label.format(AlphaInt(cluster))`, graph_ruleset_deps.py:381, 531 -/
def labelOf (ext : List Char → Nat → Except PyErr (List Char)) (template : List Char) (i : Nat) : Except PyErr (List Char) :=
  formatOne (alphaValue ext i) template

/-! ### The loop that labels the rules -/

/-- What the loop in lines 376-401 keeps, with the labels as texts (compare `Graph.Labels`). -/
structure Named where
  label : List (Nat × List Char)
  unreachable : List Nat
  mins : Option (List Nat × List (Nat × List Nat))

/-- One round of the loop, graph_ruleset_deps.py:378-399: a KeyError may come from `G.node[rule]` or from formatting the label, and is treated the
same. -/
def namedStep (fmt : Nat → Except PyErr (List Char)) (nodes : List Nat) (s : Named) (i : Nat) : Except PyErr Named :=
  match if i ∈ nodes then fmt i else .error .keyError with
  | .ok t => .ok { s with label := s.label ++ [(i, t)] }
  | .error .keyError =>
    match s.mins with
    | none => .ok { s with unreachable := s.unreachable ++ [i] }
    | some (r, g) =>
      if i ∈ r then
        if (g.lookup i).isSome then .ok ⟨s.label, s.unreachable ++ [i], some (r.erase i, dictDel i g)⟩ else .error .keyError
      else .error .valueError
  | .error e => .error e

/-- The loop over `n` rules, graph_ruleset_deps.py:376-399 -/
def nameRules (fmt : Nat → Except PyErr (List Char)) (nodes : List Nat) (mins : Option (List Nat × List (Nat × List Nat))) (n : Nat) :
    Except PyErr Named := (List.range n).foldlM (namedStep fmt nodes) ⟨[], [], mins⟩

/-! ### Options -/

/-- The options that `parse_args` looks at after parsing, graph_ruleset_deps.py:188-212 -/
structure Options where
  type : Cli.GType
  cluster : Grouping
  group : Grouping
  nodeLabel : Option (List Char)
  groupLabel : Option (List Char)
  output : Option String
  outputOnly : Bool

/-- What is printed as a warning, graph_ruleset_deps.py:223-227 -/
inductive Warning where
  | clusterIgnored (type : Cli.GType)
  | groupIgnored
deriving DecidableEq

/-- `args.type in ("dotraw", "dotpdf")`, graph_ruleset_deps.py:223, 232, 237 -/
def isDot : Cli.GType → Bool
  | .dotraw => true
  | .dotpdf => true
  | _ => false

/-- The warnings, graph_ruleset_deps.py:223-227 -/
def warnings (o : Options) : List Warning :=
  if isDot o.type = false ∧ o.cluster ≠ .none then [.clusterIgnored o.type]
  else if o.cluster ≠ .none ∧ o.group ≠ .none then [.groupIgnored]
  else []

/-- The label of nodes, graph_ruleset_deps.py:231-235 -/
def nodeTemplate (o : Options) : List Char :=
  match o.nodeLabel with
  | some t => t
  | none => if isDot o.type then "<R<SUB>{:Z}</SUB>>".toList else "{:Z}".toList

/-- The label of groups, graph_ruleset_deps.py:236-240 -/
def groupTemplate (o : Options) : List Char :=
  match o.groupLabel with
  | some t => t
  | none => if isDot o.type then "<G<SUB>{}</SUB>>".toList else "G{}".toList

/-- `parse_args` after parsing, graph_ruleset_deps.py:217-242: the program ends (`none`), or goes on with the warnings and labels. -/
def parseArgs (o : Options) : Option (List Warning × List Char × List Char) :=
  if o.type = .pyplot ∧ (o.outputOnly = true ∨ (Cli.given o.output).isSome) then none
  else some (warnings o, nodeTemplate o, groupTemplate o)

/-- What `create_dot` adds to the graph for the options, graph_ruleset_deps.py:520-542: boxes with their labels, and the edges. -/
def dotExtras (ext : List Char → Nat → Except PyErr (List Char)) (o : Options) (order : List Draw.Node → List Draw.Node) (nodes : List Draw.Node)
    (edges : List (String × String)) : Except PyErr (List (List Char × List String) × List (String × String)) := do
  let bs ← if o.cluster = .none then .ok [] else
    (Draw.boxes order nodes).mapM fun b => (labelOf ext (groupTemplate o) b.1).map fun t => (t, b.2)
  let es ← if o.group = .none then .ok edges else Draw.constraints order nodes edges
  return (bs, es)

/-! ### The web page -/

/-- `D3_HTML`, graph_ruleset_deps.py:72-160, line by line -/
def d3Lines : List String :=
  ["<meta charset=\"utf-8\"/><!DOCTYPE html>",
   "<html>",
   "    <head>",
   "        <title>Graph</title>",
   "        <script type=\"text/javascript\"",
   "          src=\"https://cdnjs.cloudflare.com/ajax/libs/d3/3.4.11/d3.min.js\">",
   "        </script>",
   "        <style>",
   "        circle.node {{",
   "         stroke: #fff;",
   "         stroke-width: 1.5px;",
   "        }}",
   "",
   "        line.link {{",
   "         stroke: #999;",
   "         stroke-opacity: .6;",
   "        }}",
   "        </style>",
   "    </head>",
   "    <body>",
   "        <div id=\"chart\"></div>",
   "        <script type=\"text/javascript\">",
   "",
   "var WIDTH = 1500,",
   "    HEIGHT = 800,",
   "    fill = d3.scale.category20();",
   "",
   "var vis = d3.select(\"#chart\")",
   "  .append(\"svg:svg\")",
   "    .attr(\"width\", WIDTH)",
   "    .attr(\"height\", HEIGHT);",
   "json = {};",
   "for(key in json.nodes) {{",
   "    node = json.nodes[key]",
   "    node.x = node.pos[0] * WIDTH;",
   "    node.y = node.pos[1] * -HEIGHT + HEIGHT;",
   "    node.fixed = true;",
   "}}",
   "var color = d3.scale.category20();",
   "  var force = d3.layout.force()",
   "      .charge(-120)",
   "      .linkDistance(30)",
   "      .nodes(json.nodes)",
   "      .links(json.links)",
   "      .size([WIDTH, HEIGHT])",
   "      .start();",
   "",
   "  var link = vis.selectAll(\"line.link\")",
   "      .data(json.links)",
   "    .enter().append(\"svg:line\")",
   "      .attr(\"class\", \"link\")",
   "      .style(\"stroke-width\", function(d) {{ return Math.sqrt(d.value); }})",
   "      .style(\"stroke\", function(d) {{ return d.color; }})",
   "      .attr(\"x1\", function(d) {{ return d.source.x; }})",
   "      .attr(\"y1\", function(d) {{ return d.source.y; }})",
   "      .attr(\"x2\", function(d) {{ return d.target.x; }})",
   "      .attr(\"y2\", function(d) {{ return d.target.y; }});",
   "",
   "  var node = vis.selectAll(\"circle.node\")",
   "      .data(json.nodes)",
   "    .enter().append(\"svg:circle\")",
   "      .attr(\"class\", \"node\")",
   "      .attr(\"cx\", function(d) {{ return d.x; }})",
   "      .attr(\"cy\", function(d) {{ return d.y; }})",
   "      .attr(\"r\", 5)",
   "      .attr(\"fill\", function(d) {{return d.fillcolor;}})",
   "      .call(force.drag);",
   "",
   "  node.append(\"svg:title\")",
   "      .text(function(d) {{ return d.d3name; }});",
   "",
   "  vis.style(\"opacity\", 1e-6)",
   "    .transition()",
   "      .duration(1000)",
   "      .style(\"opacity\", 1);",
   "",
   "  force.on(\"tick\", function() {{",
   "    link.attr(\"x1\", function(d) {{ return d.source.x; }})",
   "        .attr(\"y1\", function(d) {{ return d.source.y; }})",
   "        .attr(\"x2\", function(d) {{ return d.target.x; }})",
   "        .attr(\"y2\", function(d) {{ return d.target.y; }});",
   "",
   "    node.attr(\"cx\", function(d) {{ return d.x; }})",
   "        .attr(\"cy\", function(d) {{ return d.y; }});",
   "  }});",
   "        </script>",
   "    </body>",
   "</html>"]

/-- `D3_HTML`, graph_ruleset_deps.py:72-160 -/
def d3Html : List Char := (d3Lines.map fun l => l.toList ++ ['\n']).flatten

/-- `D3_HTML.format(json.dumps(data))`, graph_ruleset_deps.py:602; the format of a string without specification is the string. -/
def d3Page (ext : List Char → Except PyErr (List Char)) (json : List Char) : Except PyErr (List Char) :=
  formatOne (fun spec => if spec = [] then .ok json else ext spec) d3Html

end OFE.Label
