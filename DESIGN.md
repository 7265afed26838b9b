# Formal model of marnanel/sangfroid in Lean 4

## Trusted base

* Lean 4.33.0's kernel. No `sorry`, `admit`, `native_decide`, `bv_decide`, no axioms of our
  own. Every property theorem depends on at most `propext`, `Classical.choice`, `Quot.sound`
  (see "Axioms" below).
* The faithfulness of the hand translation from Python to Lean. Every model definition cites
  the file and lines in `/repo` it was read from, and says where it simplifies.
* Our reading of the libraries the code stands on: CPython's `float`, `%`-formatting, `re.split`,
  `sorted`, `dict`; Beautiful Soup 4.12.2's tree operations and serializer; an XML parser without
  comments and processing instructions inside the root, CDATA, namespaces and
  recovery from errors; UTF-8 as in Lean's library, which is also taken to be the encoding in which `open(f, 'r')`
  reads `.sif` files (Python's default depends on the locale, while `save` always writes UTF-8); the gzip and zip
  formats (opaque: assumed inverse).

## How it is modelled

* **Python strings** are lists of Unicode scalar values (`Str = List Char`). `lower`, `strip` and
  digit recognition are modelled on ASCII. Tag and attribute *names* are `String`.
* **Exceptions** are values (`Except Err α`). Where an operation can change the document and then
  raise, the result carries both the state it leaves behind and the error.
* **Floats** are rationals with an explicit rounding `rnd : ℚ → ℚ` after every inexact
  operation. Theorems about float code quantify over every rounding satisfying the laws
  in `Fl.Lawful` (idempotent, nearest, odd, relative error 2^-53, exact on m·2^e with
  |m| ≤ 2^53, spacing). `double` (round-half-even to 53 bits, unbounded exponent) is proved to satisfy the laws.
  Not modelled: subnormals; the negative zero, but for reals and colours (`SignedZero.lean`, for C19 and C24); and, but for
  C166, overflow, NaN and infinities: text such as `nan` and `inf` yields `Err.unmodelled` in the model's `float()`
  (`NonFinite.lean` models them for times, reals and angles).
* **Whole numbers** have no limit. (Since Python 3.11, `int()` and `str()` raise `ValueError` for those of more than 4300
  digits, unless it is told otherwise.)
* **Beautiful Soup** is modelled twice: as immutable trees for everything that works inside
  one element, and as a heap of nodes with parent pointers and child lists for everything
  about identity, moving and aliasing.
* **Files** are a map from names to byte strings; each system call is one step, and a crash
  may fall between any two steps, or inside a write (any prefix).

## Properties: what is modelled, how it is proved

| id | model | proof |
|---|---|---|
| C01, C02 | `T.__str__`, `_parse_time_spec` on characters | round-trip law over a printer of h/m/s/f parts; float steps by the laws of `rnd`; C02's limit is a theorem plus witness |
| C03–C05 | `_compare`, ordering methods, `__hash__` with an arbitrary hash | order axioms by reduction to ℚ; counterexample for mixed fps |
| C06, C08–C11 | `T.__init__`, `seconds`, `framecount` | case analysis of the constructor |
| C07 | parser over a grammar of parts | induction over the list of parts |
| C07 | decimal amounts and any frame rate | how many roundings lie between the exact number and the code's, in the direction of the seconds |
| C12, C13 | registry as association list | induction over registration history |
| C14–C18 | format handlers, `Animation.save`, file steps | case analysis; crash points are prefixes of the step list |
| C19–C31 | each value class's getter and setter on trees | round-trip laws; finite tables by kernel evaluation lifted to all digits |
| C32–C43 | `Value`, `Timeline`, `Waypoint` | refinement to a sorted association list, induction over operation histories |
| C44–C59 | `Layer`, `Group`, fields, class table | structural induction over trees; table facts by kernel evaluation over the whole table |
| C60, C61 | `Animation` header fields, `Keyframes` | case analysis |
| C62–C64 | `Replacer` line machine, file steps | induction over lines with a loop invariant; prefixes of the step list |
| C65–C69 | `bywords` | induction over words |
| C70–C72, C95–C97 | heap model (`Verif.Dom`) | forest invariant by induction over operation histories; what each operation does to the contents of every element |
| C73–C75 | setters given value objects; comparison of reals | case analysis; C75 is a refutation for every readable transformation |
| C76–C82 | `Timeline` subscripts, `+=`, `==`, times with another rate | refutations for every value they concern, and exact characterisations of what happens instead |
| C83, C84 | `_construct_empty_tag`, `find_all(recursive=False)` | table facts lifted to all elements; structural induction |
| C85–C90 | `Animation` header fields and properties | field table by kernel evaluation, lifted to all documents by attribute-lookup lemmas |
| C91 | `handle_all_files`, `check_everything_was_seen` | induction over the files |
| C92–C94 | `tidy_string`, `adjust`, the groups looked at | induction over words; timeline lemmas of C38 |
| C98–C107 | `__eq__`, `__len__` and truth of every value class | case analysis; exact characterisations by decimal round-trip lemmas |
| C108, C112 | subscripts of gradients and vectors | round-trip law of a stop, lifted to all histories by induction; refutations for every position and every vector |
| C114–C116 | serializer and parser on characters (`Verif.XmlText`), `BLANK_ANIMATION` | mutual induction over the tree against the parser's state machine; an invariant of the machine for every text; C116 by kernel evaluation of the parser |
| C117, C118 | the readers of `Verif.Value`, `Waypoint.fromTag`, `iterTimeline` | elements as Synfig writes them are described in `Verif.Spec.Reading` up to order and white space; induction over the children |
| C119 | conversions `float()`, `int()`, `bool()`, `str()` of assigned objects | equations between setters, and case analysis |
| C120 | C114's documents, with all the getters of values, timelines, layers and groups | every element of the opened document is the image of the one in the same place; each getter commutes with that map |
| C121 | assigning to a canvas | equations; the property is refuted for every non-empty list |
| C122 | `as_python_expression` and Python's `repr` of text; a grammar of Python literals with what they stand for (`Spec/Literals.lean`) | the text is derived in the grammar, and the constructor applied to what it stands for gives the value |
| C123 | `str` and `repr` of values | the text is read back, or stated outright |
| C124 | every operation of the model that changes an element (`Spec/Legal.lean` lists them), at any place in a document | each operation keeps names, attributes and texts legal, also when it raises; induction over histories; then C114 |
| C125 | `docs/examples/*.py` as functions from a document to a document and an outcome, and from a disk to a disk; layers found are known by their places | each assignment changes one place; induction over the layers found; C124, C15 for the files |
| C126 | `bywords/adjust.py` and what `bywords/__main__.py` does after parsing its arguments | the same, with C65–C69 for the schedule and C93, C94 for the timelines |
| C127 | statements about a layer (`Spec.Step`): the setters of C54, C57 and whatever can be done to a value; `SameBesides` says, in terms of what is read, what must stay | values hold no element with a name (`Nameless`, kept by everything done to values); so a search for another param finds the same; induction over the program |
| C128 | the same statements | two params of one layer are two disjoint children; plug both; any number of statements by induction on the permutation |
| C129 | the setters of values, params and attributes | each setter's result, when it succeeds, depends only on what the others leave alone |
| C130 | `Layer.__repr__`, `Text.__repr__`, `tag_depth`, `str` of a canvas | a Python literal can be read in one way only, whatever follows; so can a layer's text, and a list of them |
| C131 | `str` of waypoints and timelines | the text of a time is ASCII without a space in front, the interpolations' signs are not ASCII, so the parts can be told apart |
| C132 | the list of blend methods | the dict of numbers is what the last line about each says; sorting a dict without gaps gives the list; the replacer's theorems (C62–C64) for each file, and that files don't interfere |
| C133 | the list of symbols | the lines of all files cut at the classes of layer; the symbol of each is the last one set in its part |
| C134 | comparing numbers with text | directly from the model of `Simple.__eq__`, with `int` and `float` of a text |
| C135 | values as dictionaries | `Views`: the dictionary methods, compared with each other and with the subscripts, from facts on dicts built by assignment |
| C136 | Searching by the value of a field | `attrEq` uses `valueEq`; the layers found are characterised by place (`findAllAt`), what equality with a number and with a text comes to is stated class by class in Spec/FindValue, and the round trips C19-C23, C31 give that what was set is found |
| C137 | what text is a colour | the pairs of characters that int(..., 16) accepts, by case analysis; then the four pairs |
| C138 | what a change does to the text of the file | the text of an element is around the text of each of its children; attributes are written in order of their names, so the others keep their places |
| C139 | running bywords again | what the program finds depends on the document without what is in its text layers, which the program keeps; and a document made by changing the texts of some layers is determined by those texts |
| C140 | Which texts are times | Spec/TimeText gives the pattern for a part and, as an inductive relation, the cut of a text at its parts; the cut exists and is unique, and is what the scanner finds. Induction over the pieces shows what is collected. The acceptance condition and the value are then stated outright. |
| C141 | What is shown of an animation's keyframes | `str` of a keyframe, of an animation and of its keyframes; the text of a time has no quotes in it, Python literals can be read in one way only and have no line ends in them, so the text is cut up from the left by induction over the lines |
| C142 | The header and the keyframes are the same after saving and opening | every getter of the header on the opened document, by what saving does to each kind of attribute; keyframes pairwise, with the same root |
| C143 | Documents don't affect one another | the parts of the document are a set that no step of any operation touches, by induction over programs |
| C144 | A change in memory shows exactly where it was made | `Spec.Swapped` says that one element looks like another but for one part; by induction from the changed element upwards |
| C145 | Searching by what every layer has | `layerAttr` on each attribute, for every class in the table; then the general facts on searches |
| C146 | Bywords can be used again | `useAll` runs `adjust` again and again. `untext` empties all params called 'text'; searching commutes with it, and `adjust` keeps it; so the conditions of C126 hold after each use, and C126 says what the next one does. By induction over the uses. |
| C147 | The ways of writing a search come to the same | Equalities of `findAllLayers` for the arguments written in different ways, exceptions included where they are the same; for orders and unions, by what each layer has to meet (`meetsAny_true`). |
| C148 | The shortcuts of a group over time | Induction over the assignments (`assignShortcuts`), going on after exceptions: the group stays the same around its transformation (`Slot`), which has at most the part assigned last. |
| C149 | Searching by a time | `FindTime` has the search with the root of the document given, and agrees with `Find` wherever that says anything; what equality of a time with a number, a text and a `T` comes to, from `Simple.__eq__`. |
| C150 | Times between frames | `rnd_seconds` and `str_loop` give the text of any time; `fmtG_amount` shows that '%g' makes a decimal as in a specification from a ten-thousandth up, and `fmtG_small` that it has an exponent below that; then reading either, as for C07. |
| C151 | Running the bywords program on a file it has saved | What holds of the file's animation (`Steady`) is kept both by a use of bywords and by saving and opening; the texts bywords makes are of one kind (`Sung`), of which only the times are read back differently, and a use of bywords forgets them. So saving and opening in between makes no difference to what is read in the end (`Steady.commute`); by induction over the runs. |
| C152 | A program killed while it runs | `runStates` gives the disk at each point of a program's run and `eachStates` at each point of a sequence of runs; invariant by induction over the runs, from the crash points of a save (C16, C17). |
| C153 | Animations saved to one file at the same time | A transition system: each process opens the file, which empties it, and then writes pieces of any size at its own position. Invariant over all reachable states, with the last process to have opened the file as witness; the violations by giving the order of the steps. |
| C154 | Programs run on one file at the same time | The same transition system, with a step that reads the file and does the program's work first. `oneByOne` is the specification; refinement by an invariant with the list of those that have ended. Then again with files read step by step (`Verif.Stepwise`, as in C161), by a simulation in which a process that is opening the file is one that has yet to read it. |
| C155 | However a file is written, it opens as the same animation | The ways to write a document as inductive relations (`Spec/Writing.lean`); by mutual induction over them, the parser's state machine reads each as the document. Existence: every character can be written as a number. |
| C156 | Comments and suchlike outside the root | The parser's run on the ways to write a document (as for C155), with `<!` or `<?` before or after: the assertion in `Animation.__init__` as an exception. |
| C157 | Waypoints between frames, saved | C158's readback of one time (at whole rates shown to be monotone); then the opened timeline is the old one with each time moved, and the dict of waypoints keeps the last at each time. |
| C158 | Frame rates that aren't whole numbers | The proof of C150 again for a rational rate: `rate_read` says what is read, with the product of seconds and rate rounded. For eighths everything is exact. `SavableTime` has a case for them, so C43 and C120 cover them. `RateSaved` has the waypoint at frame 330 that is lost. |
| C159 | Values put in a timeline are copied | `DomTimeline` has assignments to timelines in the tree of objects of C133, in which elements have addresses, so a value can be given which is the one whose timeline it is. The copy is shown to be of the element as it was, and the rest to be unchanged, by what rewriting one place does to all others; for the value's own timeline the element is empty when it is looked at. |
| C160 | Assigning what was read changes nothing | `PutsBack` says it of a value; one theorem for each class, by the round trip of that class started from what the getter gives (floats read are representable; the hex text of a colour is canonical; the texts of a vector are put in a dict that has them already). Header fields and attributes of layers by what is in the attribute afterwards. |
| C161 | Opening a file while it is saved to | `Animation(name)` as steps (`OpenStep`): a look at the first two bytes, opening again, reading pieces, end of file; beside the processes of C153. Invariant over all orders of steps: what has been read is `patched a b k m`. Its converse: each of those comes about. |
| C162 | A source file rewritten by several processes at the same time | Processes with steps: open (create or empty) the temporary file, write a piece, rename it; names refer to numbered files, so that a process goes on writing to a file which has been renamed. Invariants over all orders of steps (`TInv`, `TTurn`); runs that violate it, for all texts. |
| C163 | Saving to a disk without enough room | `save` again, with the number of bytes there is room for; a relation between it and the one of C15 (`save_shape`), and induction over the attempts. |
| C164 | Rewriting the source files, interrupted and run again | The disks that an interrupted run may leave (`handleFilesStates`), and runs of any number of these; an invariant (each file is old or new, and a temporary file is there only if its file is to be written), from C62, C64 and C91. |
| C165 | Files hold what was last saved to them | Refinement: `Session` (bytes on a disk, and animations) against `Store` (documents by name), the invariant being that opening any file gives the same; induction over the statements. For the last save, a frame lemma, which needs no condition on what else is saved. |
| C166 | Numbers that aren't finite | `t.py` again over floats with infinities and NaN, and with overflow; a refinement to the model of the other properties where nothing is infinite (`c166_agrees`), and case analysis. |
| C167 | Comparing gradients | `gradientEq` of the model of comparisons, by induction over the stops; that the positions are the same in both follows from their number and their being different. |
| C168 | Changing the frame rate | `setHeader` for the field `fps`, then `T.new` in the changed document, by C07's and C87's theorems; `iterTimeline` in both documents by C118's, and that two sorted arrangements of the same waypoints are equal. |
| C169 | Groups over time | `Spec/GroupLists.lean` has lists of layers and what the operations do to them. By induction over the operations: each group keeps its canvas, and its children are its list (a refinement of the model in memory, `Dom`). |
| C170 | A layer moved between animations | `DomRoot.lean` has the parents of an object in memory, and `_canvas_root` from them. An operation of C169 changes nobody's parents but the layer's; so everything in the layer has the root of its new home. The rest is C168. |
| C171 | Moving layers in a loop | `DomLoop.lean` has the generator and the loop's body taking turns, with Python's backward list iterator as a position in a list that changes. By induction over the position: what is moved away was at the position or after it, so the rest isn't disturbed. For the group itself: whatever has been moved, the position of the first layer in the canvas is the same, and when the loop comes to it it is refused. |
| C172 | Another order of layers | by induction over the list of layers, with the list semantics of C169 |
| C173 | Loops over a timeline | `WpLoop.lean` has the list that the generator makes before its first turn, and the body of the loop applied to each. By induction over what is left of the list, with the map that the timeline stands for once some of the waypoints have been moved given outright. |
| C174 | Layers found after moves | `DomFind.lean` has the search over objects in memory. What is in what after a move is worked out from the parents (those of C70's trees); a tree's objects are listed once, so numbers of layers are sizes of sets. For sequences, by induction, refused moves included. |
| C175 | `layer in group` | `LayerIn.lean` has `__contains__` given a layer: a search for a parameter for whose name calling the layer gives something true. What a search in a layer with no layers finds is C50; which layers are true is C99. |
| C176 | Moving what has been found | `DomFind.lean` has the loop over the list. That appending each of a list of layers gives the lists one would expect is by induction (C171); the layers found are listed once each (C174), and the children of a group are a sublist of the layers found in it, reversed. |
| C177 | Moving descendants in a loop | `DomLoop.lean` has the two generators, one in the other, going through contents that change. By induction over the position in the outer one: what is moved is taken out at the position or elsewhere, and the inner loop is C171. So it is as if the list had been made first. |
| C178 | The parent and depth of moved layers | `DomParent.lean` has the two loops up through the elements around a layer. What is around a layer after the move is the canvas and what was around that; for a layer below, what was between it and the layer moved is the same; for others all is the same. |
| C179 | Inserting children in a loop | C171 turns the loop into one over a list. By induction over that: the group that they are put in is P ++ S, and each is put between P and S, and belongs to one of them then. |
| C180 | Assigning in loops | `DomAttr.lean` has the assignments to attributes of elements in memory. They leave the shape alone: contents, parents, names and types. Whatever does that can't disturb a loop, by induction over the position. Assigning twice is the same as once, so it doesn't matter if a layer is come to twice. |
| C181 | Assigning to parameters in loops | One assignment replaces one element in the layer; what isn't in the layer nor around it is the same (C144), and what is in it is as the model of documents as values says (C54). Assigning never puts one layer into another, so layers none of which is in another stay so. By induction over the list each is as after an assignment to it alone. `OwnLoops.lean` does without that: it is the parameters that mustn't be in one another, and an assignment to one leaves it to be found where it was, what is in the others too. |
| C182 | Changing what has been searched for | The search in memory filters the objects below with the matcher of the model of documents as values, so it is shown to find the same by reading each object as a node. What it finds is a sublist of all the layers below, so moving and assigning are as in C173 and C180. For the search after renaming, the matcher for desc is shown to compare the description, and the loop to change just the descriptions of what was found. |
| C183 | Searching until nothing is found | The loop is a function of how many searches may be made, which gives nothing if it hasn't ended by then. One assignment takes the layer assigned to from what is found and leaves the rest, so by induction over what is found the loop does what the loop over find_all does (C182). If the layer is found again, what is found stays the same, and by induction over the number of searches it never ends. |
| C109–C111, C113 | assigning to animated values and timelines; what is left when that raises | case analysis; refinement lemmas of C38 |

Not expressible in this model (and so not claimed): anything about the appearance of rendered
frames (done by Synfig, not by this code), performance, and threads within one process (the library starts none and has no locks; processes sharing a file are modelled, C153 and C154).

## Modules

`lean/Verif/*.lean` is the model, `Verif/Spec/*` the small specifications that theorem statements are
written with, `Verif/Props/*` the property theorems with an example beside each, `Verif/Lemmas/*`
everything else. Each model file covers:

| model | code |
|---|---|
| `Py` | CPython: floats as rounded rationals, `float()`, `int()`, `%`-formatting, `repr`, `strip`, `lower`, `join` |
| `T` | `sangfroid/t.py` |
| `NonFinite` | times and floats again, with infinities, NaN and overflow |
| `SignedZero` | real numbers and colours again, with the sign of zero |
| `Registry` | `sangfroid/registry.py`, `sangfroid/util.py` (`normalise_synfig_layer_type_name`) |
| `Format` | `sangfroid/format.py`, `Animation.__init__` and `Animation.save` |
| `Session` | a program with several animations and files |
| `DiskFull` | saving with a given amount of room on the disk |
| `Xml` | Beautiful Soup trees as values, and what saving and loading does to them |
| `XmlText` | Beautiful Soup's serializer, an XML parser, UTF-8 |
| `Blank` | `BLANK_ANIMATION` |
| `Value` | `sangfroid/value/*.py` except timelines |
| `Timeline` | `Timeline`, `Waypoint` and `_set_animated` in `sangfroid/value/value.py` |
| `WpLoop` | loops over a timeline whose body changes it |
| `Text` | `str`, `repr` and `as_python_expression` of values; Python's `repr` of text |
| `LayerText` | the text of layers, canvases, waypoints and timelines |
| `KeyframeText` | `str` of keyframes and animations |
| `Scan` | the scripts in `etc/`: `scan-synfig-source.py`, `get-symbols.py` |
| `Views` | the dictionary methods of timelines, vectors, gradients and transformations |
| `Compare` | comparisons, truth, lengths and subscripts of values (`sangfroid/value/*.py`) |
| `LayerType`, `LayerTable` | every layer class: fields, defaults, versions (`sangfroid/layer/*.py`) |
| `Layer` | `sangfroid/layer/layer.py`, `sangfroid/field.py` |
| `Group` | `sangfroid/layer/group.py` |
| `Find` | `Layer.find_all`, `Layer.find` and what they compare |
| `FindTime` | the same, for times |
| `Animation` | the header in `sangfroid/animation.py`, `sangfroid/keyframe.py` |
| `Replacer` | `sangfroid/template/replacer.py` |
| `ReplacerAtOnce` | `write_to` step by step, in several processes (`template/replacer.py`) |
| `Interrupted` | `handle_all_files` interrupted (`template/replacer.py`) |
| `Bywords` | `bywords/bywords.py`, `bywords/adjust.py` |
| `Program` | `docs/examples/stroop.py`, `docs/examples/french.py`, `bywords/adjust.py` on whole documents, `bywords/__main__.py` from where its arguments are parsed |
| `Concurrent` | Several processes running programs on the same file at the same time: reading, opening, writing in pieces and closing, in any order (`format.py` saving, `bywords/__main__.py`). Simplified: reading the file is one step. |
| `Opening` | `Animation(name)` step by step, while other processes save |
| `Stepwise` | processes which open the file step by step, do their work, and save it step by step |
| `Dom` | Beautiful Soup objects with identity; what groups and values do to them |
| `DomRoot` | the parents of an object in memory, and the animation it is in |
| `DomParent` | `layer.parent` and `layer.tag_depth` of elements in memory |
| `DomAttr` | assigning to `desc`, `active`, `exclude_from_rendering` and `version` of elements in memory |
| `DomLoop` | loops over a group's children whose body changes the group |
| `DomFind` | finding layers among objects in memory |
| `DomSearch` | searching for layers in memory, with any arguments |
| `DomUntil` | searching for one layer at a time until nothing is found |
| `LayerIn` | `layer in group` |
| `DomTimeline` | assignments to timelines in the tree of objects |

Not modelled: logging and printing; the files a format is said to refer to (`Format.__getitem__`, `__len__`, `items`, `keys`, `values`: nothing sets `_subfiles`, so they raise `AttributeError`); argument parsing (`bywords/__main__.py`,
`sangfroid/template/__main__.py`, which can't be imported: `read_existing` doesn't exist);
docstrings made by fields; comments and processing instructions inside elements (those outside the root
are, see C156), CDATA sections and namespaces; the
`MetadataTagField`s, which raise `NotImplementedError` whenever used; text other than ASCII in `lower`
and in numbers; `nan`, `inf`, `-0.0` and overflow, but for what is said above; Beautiful Soup's `next_element` links; reading `.srt`
files (done by pysrt).

## Axioms

`#print axioms` on every theorem named in MANIFEST.json gives a subset of `propext`,
`Classical.choice`, `Quot.sound`, and nothing else. `vcheck` repeats this check.

## Where the code disagrees with the property

In each case the refutation is a theorem, in most cases for every input concerned and not only for a
witness, and what does hold is proved beside it.

| id | what happens |
|---|---|
| C03 | a time that is NaN doesn't equal itself, and is more than every time, which is more than it (`c166_fails_order`) |
| C05 | a time with known and a time with unknown fps can be equal with different hashes |
| C07 | `0.03m -1.8s 1f` is no seconds and one frame, but rounding leaves a little below zero seconds, so it is read as less than -1 frame, and refused without a ref |
| C10 | a frame rate of `nan` is accepted (`c166_rate`) |
| C17 | an overwriting save truncates first: every crash before the end of writing loses the document |
| C18 | a save that fails has already redirected later saves, or destroyed the file |
| C27, C75 | assigning to a vector leaves the old coordinates in place; a transformation assigned to a transformation empties it |
| C29 | setting `group.angle` erases offset, skew and scale |
| C31 | the empty string, white space and carriage returns don't survive saving |
| C34 | a waypoint that was set can't be read if the text `x_y` occurs in the value (see C76) |
| C39 | Animating a colour with one component above 1 raises `ValueError` and the colour is lost (`c39_bright_color_lost`); with two, it is silently read as another (`c39_two_bright_wrong`). |
| C39, C79 | animating a real keeps ten decimals; animating a transformation destroys it |
| C41 | a waypoint with a value of the wrong class can be assigned, and then the timeline can't be read |
| C49 | `descendants` stops at the second level |
| C51 | a layer type with an underscore, and a type hidden by a `type_` field, is never found |
| C54 | subscripts and fields find params of layers nested inside |
| C55 | Halftone3 can't be made; `blend_method` and some times of new layers can't be read |
| C60, C85, C89 | `end_time`, gamma and view box are looked up under names that files don't use |
| C62, C63 | nested blocks are accepted; a class named inside a replaced block breaks idempotence |
| C65–C69, C92, C93 | Bywords: leading and trailing blanks, shares of time, empty subtitles, two words at one time, line breaks, times below a tenth of a millisecond |
| C71, C96 | appending the last child again, or inserting a layer at its own place, raises `ValueError` |
| C72, C97 | assigning one layer's value object to another moves it; un-animating strands other objects |
| C73 | a `Real`, `Integer` or `Angle` can't be set to another object of its class |
| C74 | equality of reals isn't transitive |
| C76 | a timeline whose element contains the text `x_y` can't be read |
| C77, C82 | times before the start, or from another animation, end up elsewhere |
| C78, C80 | `+=` raises after adding; adding no waypoints loses the value |
| C81 | timelines are equal if their times are |
| C83, C84 | making a layer of one class changes defaults of others; groups have no direct children for `find_all` |
| C90 | an animation without a `desc` can't be given one |
| C95 | a group can be appended to itself, which makes a cycle |
| C98, C99 | values that aren't animated, and layers without layers below them, are false in a condition |
| C100 | a canvas isn't equal to itself; classes not implemented can't be compared |
| C101–C104 | integers equal floats they don't hold; comparing a number with `None` raises; `'false'` means true; a time never equals its text in seconds |
| C105, C107 | a colour or transformation needn't equal the tuple or dict it was just set to |
| C106, C112 | vectors depend on the order of x and y in the file; subscripts give the coordinates before the last assignment |
| C108 | a gradient stop at a position of more than six digits isn't found again |
| C109 | assigning to an animated text, vector, gradient or transformation leaves it animated and broken |
| C110 | a list refused as a timeline has already destroyed the value |
| C113 | assigning at a time from another animation raises and removes all waypoints; so does deleting the last waypoint of a value outside any layer |
| C115 | A newline or a tab in an attribute (`&#10;`), and a carriage return in text (`&#13;`), are saved as themselves, so that after opening again they are a space and a newline (`c115_fails`). |
| C119 | assigning `None` to a string stores the text `None`; a vector takes `(True, False)` and then can't be read (c119_vector_bool_fails) |
| C120 | descriptions with tabs or line ends come back with spaces |
| C121 | assigning layers to a canvas raises and loses those it had |
| C122 | the expressions of times of a second or more are refused by `Time`; those of blend methods and animated values aren't expressions for them |
| C123 | `str` of an animated gradient raises, or shows the colours of all waypoints as one gradient |
| C124 | control characters in texts, and keys of vectors that aren't names, are accepted; the file saved then isn't XML |
| C125 | one layer of an unknown type anywhere stops the programs; so does a blue text without a colour; `french.py` removes the animation of texts |
| C126 | a matching layer without a text, or an animation without a frame rate, stops bywords when it has already un-animated other texts |
| C127 | in a group whose canvas comes before a param of its own, setting the param changes a nested layer's, and appending a layer hides the group's |
| C129 | assigning a vector's value twice leaves both pairs of coordinates in the element |
| C130 | `repr` of a text layer whose text is missing raises `AttributeError`, and so does `str` of a canvas that holds it |
| C133 | `get-symbols.py` gives `Rotate` the fallback `?` of `layer.py`, because the current class outlives its file |
| C135 | `vector.keys()` is sorted but `values()`, `items()` and iteration follow the file, so `zip(v.keys(), v.values())` swaps the coordinates of a vector with y before x; an animated vector has the one key `'waypoint'` and `None` for values; `transformation.keys()` has a repeated part twice where `items()` has it once and the subscript raises `ValueError`. |
| C136 | a search by one field raises if any layer anywhere has a value there that can't be compared: `find_all(radius=None)` raises TypeError as soon as there is a circle (`c136_none_raises`), and `find_all(blend_method=...)` raises AssertionError as soon as there is a layer with a blend method (`c136_blend_raises`). `find_all(invert='false')` finds those that are true (`c136_text`). Before values are compared their texts are made for the log, whatever the level of logging: if one can't be made the search raises (`c136_text_raises`), or, for an AttributeError, the layer is silently passed over (`c136_passed_over`). |
| C137 | `Color('#-1-1-1')` and `Color('1 2 3 ')` are accepted: a pair may be a digit with a sign or a blank, and channels can be negative |
| C139 | with one bywords group in another the result depends on the order of a Python set (`c139_order_matters`); a layer scheduled in the first run and not in the second loses its text (`c139_text_lost`) |
| C140 | A piece of a time specification whose last character isn't h, m, s or f is accepted if what is before that character is a number, and counts for nothing. So a number of two digits or more with no unit is zero frames (`c140_fails_number_is_zero`), and a number of one digit is a `ValueError` (`c140_digit_refused`). |
| C142 | A tab or a line end in a header attribute is a space after saving and opening, as attributes are written without character references (`c142_fails_tab`). |
| C145 | A layer whose version isn't a number makes every search by version raise `ValueError` (`c145_bad_version_raises`). |
| C147 | `raise v.ValueError(...)` in `find_all` uses a variable that is not set, or the value of a criterion: `UnboundLocalError` or `AttributeError` is raised instead (c147_refused). A criterion met early hides an exception which a later one would raise (c147_order_of_exceptions_fails). |
| C148 | After `group.angle = 90` the other shortcuts raise KeyError, the transformation can't be read, and `find_all(scale=...)` raises KeyError in any document with the group in it (c148_others_lost, c148_whole_unreadable, c148_search_raises). A refused assignment loses all four parts (c148_others_lost). An animated transformation raises KeyError for everything (c148_animated). |
| C149 | `find_all(duration='2s')` finds no layer, not even one with that text in the file, because the text is read without a frame rate (c149_seconds_never_found); a `T` is taken by its frames, whatever its rate (c149_time_object), unless it is before the start, when another rate makes the search raise (c149_time_object_refused). |
| C150 | `str(T)` writes `1s 7.10543e-15f`, which `T` refuses with ValueError (c150_fails_refused), and `9.53674e-07f`, which it reads as seven frames before the start (c150_fails). |
| C151 | `main` run a second time on the file it saved raises ValueError, if a letter or word began at, say, 1.0000000000000002 seconds (c151_second_run_fails). |
| C152 | Every run of `main` that would succeed passes a state in which the animation's file is empty (c152_each_fails). |
| C153 | Saving truncates the file and writes it in place with no lock, so that two saves at the same time may leave a mixture (c153_third). |
| C154 | Programs that open, change and save the same file at the same time can lose each other's changes (c154_lost), or fail since the file is empty while another saves it (c154_empty). |
| C156 | `Animation.__init__` asserts that the soup holds one thing, so files with a comment, a document type or a processing instruction outside the root can't be opened (`c156_before_fails`, `c156_after_fails`). |
| C157 | waypoints nearer than the six digits of the text merge when saved and opened; one a tiny part of a frame past a second makes the timeline unreadable (`c157_fails_few`, `c157_fails_unreadable`). At rates that are not whole, such as 23.976, two waypoints may change places (`c157_fails_order`, `c157_fails_order_film`). |
| C158 | at 29.97 frames per second frame 330 is written `11s 0.33f`, which is read as 329.99999999999994: a waypoint there isn't found at frame 330 after saving and opening (c158_fails) |
| C159 | `c.radius.timeline[0] = c.radius`, and `timeline.add(Waypoint(0, c.radius))`, lose the value without raising: the only waypoint holds an empty `<animated>` element, and the timeline can't be used afterwards |
| C160 | `transformation.value = transformation.value` raises TypeError and leaves only what came before the angle; `color.value = color.value` turns a red of 0.5 into 0.501961; `vector.value = vector.value` writes the coordinates a second time; an animated String loses its waypoints and an animated Vector its animation. |
| C161 | An animation opened while another is saved over it may be neither: a file with one called "by", being replaced with "an", may be opened as "bn" (c161_third). Nothing locks the file, and it is rewritten in place. |
| C162 | `write_to` is safe against crashes (C64) but not against another `write_to` of the same file: the temporary file is always called the same, so a half-written one can be renamed into place (c162_incomplete). |
| C163 | If the disk is full, the old file is lost, though the new one can't be saved (c163_old_lost). |
| C164 | A run after an interrupted one raises if a block had a class's name in it which a later block is called after (c164_fails). |
| C166 | `T('inff')` is accepted but `str` of it raises `ValueError`, and an animation with such a waypoint can't be saved; `T('nanf')` is more than every time and less than none; a frame rate of `nan` is accepted though rates are said to be positive; an infinite `Real` doesn't equal itself. |
| C167 | a gradient set to `{0: '#000', 1/3: …}` (with hex digits in full) isn't equal to that dict, since `%.06g` drops digits. |
| C168 | after `animation.fps = 12` in an animation at 24 frames per second, a waypoint at `23f` comes after one at `1s`; after `fps = 23` only one of them is left. |
| C170 | Waypoints of a layer that is moved to an animation with another rate are at other moments, and with a lower rate can change places or be lost. |
| C171 | Appending each layer of a group to the same group, in a loop over it, always raises `ValueError`, with the order changed. |
| C172 | Appending a group's layers to it in another order raises `ValueError` if the first was the last; so the order can't be reversed in this way. |
| C175 | `layer in group` is false for every layer that has no layers in it, also if it is in the group: `__contains__` looks for parameters (c175_never_in). |
| C176 | Layers moved with `for x in group.find_all(True): other.append(x)` end up in the opposite order (c176_reversed): `find_all` has the order of the file, `children` and `append` the other. And `for x in group.find_all(True): group.append(x)` raises ValueError at once (c176_own_group_fails), by C71. |
| C177 | `for x in group.descendants: other.append(x)` leaves layers three levels down in their groups (c177_deep_stays), as `descendants` has two levels only. |
| C180 | `for x in group.descendants: x.desc = v` doesn't come to layers three levels down (c180_deep_unchanged). |
| C181 | `for x in animation.children: x[f] = v` changes layers that aren't children of the animation, if a child is a group that hasn't got `f` (c181_reaches_inside). |
| C183 | `while x := z.find(...)` ends at the first layer without layers below it, such as a circle, though there is more to find (c183_stops_at_leaf). |

## Wrong programs

`seeded/LOG.jsonl` has every edit that was tried on the model, including those that no theorem noticed; `seeded/README.md`
says how to read it. In particular, its `theorems_failed` includes theorems that merely depend on a lemma that failed.
