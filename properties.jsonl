{"id": "C01", "title": "Time text round-trip (non-negative)", "statement": "If t is a T with a non-negative whole number of frames (below 2^53) in an animation whose fps is a whole number from 1 to 999999, then T(str(t), ref) is the same instant: same frames, same fps. This is what saving a waypoint and loading it again relies on.", "quantifier": "every frame count below 2^53, every whole fps from 1 to 999999, every IEEE-like rounding of float arithmetic", "why_tests_cant": "the h/m/s/f decomposition goes through float division, floor and %g; a table of examples cannot cover every frame/fps pair or rounding", "anchors": ["sangfroid/t.py:T.__str__", "sangfroid/t.py:T._parse_time_spec"]}
{"id": "C02", "title": "Time text round-trip (negative)", "statement": "A negative time with a whole number of frames survives T(str(t), ref) when its text has at most one of the h, m, s parts; with two or more such parts the code applies the minus sign only to the first part, so the text of t denotes a different instant.", "quantifier": "every negative frame count and whole fps", "why_tests_cant": "the boundary between surviving and not surviving is a statement about all negative times", "anchors": ["sangfroid/t.py:T.__str__", "sangfroid/t.py:T._parse_time_spec"]}
{"id": "C03", "title": "T comparison is a total order within one frame rate", "statement": "For Ts with the same (or unknown) fps, exactly one of a<b, a==b, a>b holds, < is transitive, and all of them agree with comparing the frame counts; comparing with an int or float compares the frame count, and int(t) is the frame count without its fraction. (Violated for a time that is NaN, such as T('nanf'): it doesn't equal itself, and is more than every time, which is more than it.)", "quantifier": "all triples of T values and all numbers", "why_tests_cant": "order axioms quantify over all pairs and triples", "anchors": ["sangfroid/t.py:T._compare", "sangfroid/t.py:T.__lt__", "sangfroid/t.py:T.__eq__"]}
{"id": "C04", "title": "Comparing Ts of different frame rates is refused", "statement": "Comparing two Ts whose fps are both known and different raises ValueError, whatever their frame counts, and never returns an answer; a T whose fps is unknown may be compared with any T.", "quantifier": "all pairs of Ts", "why_tests_cant": "must hold for every pair of frame rates and frame counts", "anchors": ["sangfroid/t.py:T._compare"]}
{"id": "C05", "title": "Equal Ts hash equal", "statement": "Ts that compare equal have equal hashes whenever they carry the same fps (known or unknown) or are at frame zero. (The unrestricted contract is violated: a T with known fps equals a T with unknown fps at the same non-zero frame, but their hashes are computed from different tuples.)", "quantifier": "all pairs of Ts, all hash functions on (frames, fps)", "why_tests_cant": "the hash/eq contract is a universally quantified implication", "anchors": ["sangfroid/t.py:T.__hash__", "sangfroid/t.py:T.__eq__"]}
{"id": "C06", "title": "Negative frame numbers count back from the end", "statement": "T(-k, ref) is the instant (end - begin + 1) - k frames, where end and begin are the animation's end-time and begin-time; without a ref it raises ValueError. In particular T(-1, ref) is (end - begin) and an animation's framecount is int(end - begin) + 1.", "quantifier": "every negative number, every animation header with parsable times", "why_tests_cant": "must hold for every animation length and every negative index", "anchors": ["sangfroid/t.py:T.__init__", "sangfroid/animation.py:Animation.framecount"]}
{"id": "C07", "title": "Time specification arithmetic", "statement": "A specification made of any subset of h, m, s, f parts, each a decimal number, denotes (3600h+60m+s)*fps plus f frames (minus f frames if the seconds are negative); the order of the parts and the white space around them do not matter.", "quantifier": "all part values, all subsets and orders of units, all fps", "why_tests_cant": "infinitely many specifications", "anchors": ["sangfroid/t.py:T._parse_time_spec"]}
{"id": "C08", "title": "Seconds need a frame rate", "statement": "A time specification with a non-zero number of seconds and no ref raises ValueError; with zero seconds it is accepted without a ref; frames alone never need a ref.", "quantifier": "all specifications", "why_tests_cant": "quantifies over all strings of parts", "anchors": ["sangfroid/t.py:T._parse_time_spec"]}
{"id": "C09", "title": "Contradictory or repeated parts are refused", "statement": "A specification which gives the same unit twice raises ValueError, and so does one with non-zero seconds and negative frames. (Pieces that are not a unit the code knows are not refused: '5x' is accepted as zero frames.)", "quantifier": "all specifications", "why_tests_cant": "quantifies over all strings", "anchors": ["sangfroid/t.py:T._parse_time_spec"]}
{"id": "C10", "title": "Every anchored T has a positive frame rate", "statement": "No T can be constructed whose fps is zero or negative: if the ref's fps is not positive, construction raises ValueError; otherwise the T carries exactly that fps. (Violated: an fps of nan, which isn't positive, is accepted.)", "quantifier": "all constructor arguments and refs", "why_tests_cant": "an invariant over all constructor calls", "anchors": ["sangfroid/t.py:T.__init__"]}
{"id": "C11", "title": "Frames/seconds conversion", "statement": "For an anchored T, seconds is frames divided by fps; the seconds property of an unanchored T is 0 at frame zero and raises ValueError otherwise.", "quantifier": "all Ts", "why_tests_cant": "for all values", "anchors": ["sangfroid/t.py:T.seconds"]}
{"id": "C12", "title": "Registry lookup ignores case and underscores", "statement": "from_name gives the same answer (class or KeyError) for any two names that differ only in the case of ASCII letters and underscores.", "quantifier": "all registration histories, all pairs of names", "why_tests_cant": "all spellings of all names", "anchors": ["sangfroid/registry.py:Registry", "sangfroid/util.py:normalise_synfig_layer_type_name"]}
{"id": "C13", "title": "Registry behaves as a map: last registration wins", "statement": "After any sequence of registrations, from_name(n) returns the class most recently registered under an equivalent name, and raises KeyError exactly when none was.", "quantifier": "all registration histories, all names", "why_tests_cant": "histories are unbounded", "anchors": ["sangfroid/registry.py:Registry.__call__", "sangfroid/registry.py:Registry.from_name"]}
{"id": "C14", "title": "File format is chosen by content on load and by extension on save", "statement": "Opening a file picks the handler from its first two bytes only, never its name; saving under a name picks it from the extension only (case-insensitively); in both cases at most one handler qualifies and an unknown one raises ValueError.", "quantifier": "all file contents, all file names", "why_tests_cant": "all byte strings and names", "anchors": ["sangfroid/format.py:Format.from_filename", "sangfroid/format.py:Format.handlers"]}
{"id": "C15", "title": "Save then open returns the same document", "statement": "If animation.save(name) succeeds, opening name yields the document that was saved, through whichever of .sif or .sifz was chosen; and a later save() without a name writes to that same file.", "quantifier": "all documents, all names, all prior file-system states", "why_tests_cant": "all documents and formats", "anchors": ["sangfroid/animation.py:Animation.save", "sangfroid/format.py:Sif", "sangfroid/format.py:Sifz"]}
{"id": "C16", "title": "Saving touches no other file", "statement": "save changes the contents of no file other than the one it is saving to, whether it succeeds or fails.", "quantifier": "all file-system states, all names", "why_tests_cant": "frame property over all files", "anchors": ["sangfroid/format.py:Sif.save", "sangfroid/format.py:Sifz.save"]}
{"id": "C17", "title": "Crash safety of saving", "statement": "If the process dies during animation.save(), the file on disk holds either the complete old or the complete new document. (Violated: the target is truncated before writing.)", "quantifier": "every crash point of every save", "why_tests_cant": "crash points cannot be enumerated by unit tests", "anchors": ["sangfroid/format.py:Sif.save", "sangfroid/format.py:Sifz.save"]}
{"id": "C18", "title": "A refused save leaves the animation's save target alone", "statement": "If animation.save(name) raises, a following animation.save() goes where it would have gone before. (Violated for .sfg names, whose handler cannot save; it holds when the extension is unknown.)", "quantifier": "all animations, all names", "why_tests_cant": "all failing names, all prior states", "anchors": ["sangfroid/animation.py:Animation.save"]}
{"id": "C19", "title": "Real numbers survive being stored", "statement": "After real.value = x, real.value differs from x by at most half of 1e-10 plus float rounding, and storing the value just read changes neither the text in the document nor the value.", "quantifier": "every finite float x", "why_tests_cant": "all floats", "anchors": ["sangfroid/value/simple.py:Real", "sangfroid/value/simple.py:Simple.value"]}
{"id": "C20", "title": "Integers and booleans survive being stored exactly", "statement": "After v.value = n on an Integer (or b on a Bool) v.value is exactly n (or b).", "quantifier": "every int, every bool", "why_tests_cant": "all integers", "anchors": ["sangfroid/value/simple.py:Integer", "sangfroid/value/simple.py:Bool"]}
{"id": "C21", "title": "Angles survive being stored exactly", "statement": "After angle.value = x, angle.value is exactly the float x.", "quantifier": "every finite float", "why_tests_cant": "all floats", "anchors": ["sangfroid/value/simple.py:Angle"]}
{"id": "C22", "title": "Time parameters survive being stored", "statement": "After time.value = n for a whole number 0 <= n < 1000000, time.value is frame n, attached to a document or not. From a million up the text uses an exponent and reading it back raises ValueError; a number of seconds given as text is refused even when the value is attached to a document.", "quantifier": "every number of frames, every fps", "why_tests_cant": "all frame counts", "anchors": ["sangfroid/value/simple.py:Time", "sangfroid/t.py:T.__str__"]}
{"id": "C23", "title": "Colours survive hex text exactly", "statement": "For every string of six or eight hex digits, upper or lower case, with or without '#', Color(s).value is the canonical lower-case form (alpha dropped when ff), and Color(s)==s.", "quantifier": "all 2^32 colours, both spellings, all cases; every IEEE-like rounding of float arithmetic", "why_tests_cant": "the test covers 256 greys", "anchors": ["sangfroid/value/color.py:Color.value", "sangfroid/value/color.py:Color.__eq__"]}
{"id": "C24", "title": "Colours survive tuples to six decimals", "statement": "After color.value = (r,g,b,a) or (r,g,b), as_tuple() differs from it in no component by more than half of 1e-6 plus float rounding, alpha defaults to 1, and storing as_tuple() back changes nothing.", "quantifier": "all tuples of finite floats", "why_tests_cant": "all floats", "anchors": ["sangfroid/value/color.py:Color.value", "sangfroid/value/color.py:Color.as_tuple"]}
{"id": "C25", "title": "Colour equality is an equivalence and congruent with hex text", "statement": "Color equality is reflexive, symmetric and transitive, and two Colors are equal exactly when their hex texts are equal.", "quantifier": "all colours, with finite components", "why_tests_cant": "all triples", "anchors": ["sangfroid/value/color.py:Color.__eq__"]}
{"id": "C26", "title": "Setting a vector and reading it whole", "statement": "After vector.value = (x, y), as_tuple() is (x, y) to 10 decimals, whatever coordinates x and y the vector held before.", "quantifier": "all previous contents, all finite floats", "why_tests_cant": "history", "anchors": ["sangfroid/value/vector.py:Vector.value", "sangfroid/value/vector.py:Vector.as_tuple"]}
{"id": "C27", "title": "Setting a vector and reading one coordinate", "statement": "After vector.value = (x, y), vector.x and vector['x'] are x. (Violated when the vector already had coordinates: the new ones are appended after the old, and .x reads the first.)", "quantifier": "all previous contents", "why_tests_cant": "history", "anchors": ["sangfroid/value/vector.py:Vector.value", "sangfroid/value/vector.py:Vector.get", "sangfroid/value/vector.py:Vector.__getattr__"]}
{"id": "C28", "title": "Transformations accept only their own keys", "statement": "transformation.value = d raises KeyError and changes nothing if d has a key other than offset, angle, skew_angle, scale; if d has exactly these keys, with floats for the angles and pairs of floats for the others, reading back gives d's values, vectors to ten decimals.", "quantifier": "all dicts, with finite numbers", "why_tests_cant": "all dicts", "anchors": ["sangfroid/value/transformation.py:Composite.value"]}
{"id": "C29", "title": "Setting one shortcut of a group leaves the other shortcuts alone", "statement": "After group.angle = x (or offset, skew_angle, scale), the other three shortcuts read as before. (Violated: they are erased.)", "quantifier": "all groups, all shortcuts, all values", "why_tests_cant": "all states", "anchors": ["sangfroid/field.py:ShortcutField.__set__", "sangfroid/value/transformation.py:Composite.value"]}
{"id": "C30", "title": "Gradients keep their stops in order", "statement": "After gradient.value = d (at least two stops), reading gives the stops in increasing position, with no stop lost as long as the positions differ at six significant digits; with fewer than two stops it raises ValueError and changes nothing.", "quantifier": "all dicts of stops, at finite positions", "why_tests_cant": "all dicts", "anchors": ["sangfroid/value/gradient.py:Gradient.value"]}
{"id": "C31", "title": "Strings survive being stored", "statement": "After string.value = s, string.value is s. After saving and reloading it still is. (Violated for the empty string, which comes back as 'None', for text made only of white space, and for text with carriage returns; it holds for everything else.)", "quantifier": "all strings", "why_tests_cant": "all strings", "anchors": ["sangfroid/value/string.py:String.value"]}
{"id": "C32", "title": "A timeline behaves as a map from times to waypoints", "statement": "Under any sequence of timeline[t] = w and del timeline[t] on a value of an animation, with times at or after the start, the timeline is the finite map obtained by doing the same to a map: a set replaces exactly the waypoint at that time, a delete removes exactly that one, other waypoints keep their value and interpolation.", "quantifier": "all operation sequences, all finite times, all values, all initial well-formed timelines", "why_tests_cant": "unbounded histories", "anchors": ["sangfroid/value/value.py:Timeline.__setitem__", "sangfroid/value/value.py:Timeline.__delitem__", "sangfroid/value/value.py:Value._set_waypoints", "sangfroid/value/value.py:Value._waypoints"]}
{"id": "C33", "title": "Timelines stay sorted with distinct times", "statement": "After any timeline operation that stores waypoints, the waypoints in the document are in strictly increasing order of time.", "quantifier": "all operation sequences, with finite times", "why_tests_cant": "histories", "anchors": ["sangfroid/value/value.py:Value._set_waypoints", "sangfroid/value/value.py:Timeline.add"]}
{"id": "C34", "title": "Reading back what was set", "statement": "After timeline[t] = w, timeline[t] has w's value and interpolations; deleting t and asking for timeline[t] raises KeyError. (Violated if the text x_y occurs anywhere in the value, such as in a string: ValueError. Only for numeric or T subscripts: a str subscript can be set and deleted but reading it always raises KeyError when the timeline is not empty.)", "quantifier": "all timelines, times and values", "why_tests_cant": "all states", "anchors": ["sangfroid/value/value.py:Timeline.__getitem__", "sangfroid/value/value.py:Timeline.__setitem__"]}
{"id": "C35", "title": "Deleting the last waypoint", "statement": "Deleting the only waypoint of a value in a document makes the value not animated, holding the deleted waypoint's value.", "quantifier": "all values", "why_tests_cant": "all states", "anchors": ["sangfroid/value/value.py:Value._set_animated", "sangfroid/value/value.py:Timeline.__delitem__"]}
{"id": "C36", "title": "Deleting an absent waypoint", "statement": "del timeline[t] for a time with no waypoint raises KeyError and changes nothing.", "quantifier": "all timelines and times", "why_tests_cant": "all states", "anchors": ["sangfroid/value/value.py:Timeline.__delitem__"]}
{"id": "C37", "title": "add without overwrite is all or nothing", "statement": "timeline.add(ws) raises ValueError and changes nothing if any of ws is at the time of an existing waypoint; otherwise the timeline becomes the union.", "quantifier": "all timelines, all lists of waypoints", "why_tests_cant": "all combinations", "anchors": ["sangfroid/value/value.py:Timeline.add"]}
{"id": "C38", "title": "add with overwrite", "statement": "timeline.add(ws, overwrite=True), for ws with distinct times, keeps existing waypoints at other times and replaces those at the given times. (With the same existing time twice in ws it raises KeyError.)", "quantifier": "all timelines, all lists", "why_tests_cant": "all combinations", "anchors": ["sangfroid/value/value.py:Timeline.add"]}
{"id": "C39", "title": "Animating and un-animating a value is the identity", "statement": "For a non-animated value in a document, setting is_animated to True gives one waypoint at time zero holding the value, and then False gives back the same value; setting is_animated to what it already is changes nothing.", "quantifier": "all values of scalar types", "why_tests_cant": "all values", "anchors": ["sangfroid/value/value.py:Value._set_animated"]}
{"id": "C40", "title": "Interpolations are always legal", "statement": "Every Waypoint that exists has before and after among tcb, clamped, constant, linear, ease; UI synonyms are translated; 'undefined' and unknown names always raise ValueError, from the constructor and from the setters.", "quantifier": "all strings, all setter histories", "why_tests_cant": "histories", "anchors": ["sangfroid/value/value.py:Waypoint._check_interpolation_type"]}
{"id": "C41", "title": "Waypoints never nest", "statement": "A waypoint never holds an animated value, and a stored waypoint's value has the same type as the timeline's value; anything else raises ValueError.", "quantifier": "all waypoints", "why_tests_cant": "all constructions", "anchors": ["sangfroid/value/value.py:Waypoint.__init__", "sangfroid/value/value.py:Waypoint.from_tag"]}
{"id": "C42", "title": "Assigning a timeline copies it", "statement": "After s.timeline = r.timeline, where s is of the same type as r, s has r's waypoints and r is unchanged; assigning an empty list to a value in a document un-animates it.", "quantifier": "all pairs of values", "why_tests_cant": "all states", "anchors": ["sangfroid/value/value.py:Value.timeline"]}
{"id": "C43", "title": "Waypoint times survive saving", "statement": "Saving and reloading a document keeps every waypoint at its time, for times at whole frames and a frame rate that is a whole number up to 999999, or a whole number of eighths below 1000.", "quantifier": "all timelines", "why_tests_cant": "all timelines", "anchors": ["sangfroid/value/value.py:Waypoint.tag", "sangfroid/value/value.py:Waypoint.from_tag", "sangfroid/t.py:T.__str__"]}
{"id": "C44", "title": "Children are the file's layers, reversed", "statement": "group.children yields exactly the layer tags directly inside the group's canvas, in the reverse of file order, and nothing else.", "quantifier": "all groups with one canvas, and all animations, the types of whose layers are known", "why_tests_cant": "all trees", "anchors": ["sangfroid/layer/group.py:Group._get_children"]}
{"id": "C45", "title": "append puts a layer last", "statement": "After group.append(x) for a new layer x, the children are the old children followed by x, and everything else in the document is as before.", "quantifier": "all groups, all layers", "why_tests_cant": "all trees", "anchors": ["sangfroid/layer/group.py:Group.append"]}
{"id": "C46", "title": "insert behaves as list.insert", "statement": "After group.insert(i, x) for a new layer x and -len <= i < len, children is what list.insert(i, x) would make of it; other indices raise IndexError and change nothing.", "quantifier": "all groups, all indices", "why_tests_cant": "all trees and indices", "anchors": ["sangfroid/layer/group.py:Group.insert"]}
{"id": "C47", "title": "Indexing agrees with iteration", "statement": "group[i] is list(group)[i] for integers i, including negative ones, and IndexError outside.", "quantifier": "all groups, all integers", "why_tests_cant": "all", "anchors": ["sangfroid/layer/group.py:Group.__getitem__"]}
{"id": "C48", "title": "len counts every layer below", "statement": "len(group) is the number of layers anywhere below the group; it equals the number of children exactly when no child contains a layer.", "quantifier": "all groups; for the second part, those in which layers are only directly in canvases, as the file format has it", "why_tests_cant": "all trees", "anchors": ["sangfroid/layer/layer.py:Layer.__len__"]}
{"id": "C49", "title": "descendants lists every layer below", "statement": "group.descendants yields every layer below the group. (Violated below the second level; it holds for groups whose grandchildren contain no layers.)", "quantifier": "all groups", "why_tests_cant": "all depths", "anchors": ["sangfroid/layer/group.py:Group.descendants"]}
{"id": "C50", "title": "find_all(True) finds every layer below, in file order, and find is its head", "statement": "find_all(True) returns every layer below, in document order; find_all(False) returns nothing; find(...) is the first of find_all(...) or None.", "quantifier": "all documents, all search arguments", "why_tests_cant": "all trees", "anchors": ["sangfroid/layer/layer.py:Layer.find_all", "sangfroid/layer/layer.py:Layer.find"]}
{"id": "C51", "title": "find_all by type", "statement": "find_all(type=n) returns exactly the layers below whose type is n, ignoring case and underscores in n. (Violated: underscores are stripped from n but not from the layer's type, so types spelled with an underscore are never found; and six layer classes shadow type_.)", "quantifier": "all documents, all names", "why_tests_cant": "all documents", "anchors": ["sangfroid/layer/layer.py:Layer.find_all"]}
{"id": "C52", "title": "find_all with several criteria", "statement": "find_all with several keyword criteria returns the layers that satisfy at least one of them (not all of them).", "quantifier": "all documents, all criteria", "why_tests_cant": "all documents", "anchors": ["sangfroid/layer/layer.py:Layer.find_all"]}
{"id": "C53", "title": "A layer's items are its own params", "statement": "items() lists exactly the params directly in the layer, never those of layers nested in it.", "quantifier": "all layers", "why_tests_cant": "all trees", "anchors": ["sangfroid/layer/layer.py:Layer._as_dict"]}
{"id": "C54", "title": "A layer's subscripts are its own params", "statement": "layer[name] and fields read and write the layer's own param. (Violated when a nested layer's param of the same name comes first in the file; it holds for layers with no nested layers, and for params that precede the canvas.)", "quantifier": "all layers, all names", "why_tests_cant": "all trees", "anchors": ["sangfroid/layer/layer.py:Layer.__getitem__", "sangfroid/field.py:ParamTagField._get_value"]}
{"id": "C55", "title": "A new layer has its documented defaults", "statement": "For every layer class that can be instantiated, every param field of a new layer reads back its declared default, the tag's type is the class name in lower case and the version is the class's.", "quantifier": "all layer classes and all their fields", "why_tests_cant": "a test would need to restate the table; here the table is the model and the lemma is uniform", "anchors": ["sangfroid/layer/layer.py:Layer._construct_empty_tag", "sangfroid/field.py:ParamTagField"]}
{"id": "C56", "title": "Layer types round-trip through the registry", "statement": "For every registered layer class, from_tag on the tag a new layer of that class makes gives that class again.", "quantifier": "all layer classes", "why_tests_cant": "finite table", "anchors": ["sangfroid/layer/layer.py:Layer.from_tag", "sangfroid/layer/layer.py:Layer._construct_empty_tag"]}
{"id": "C57", "title": "Boolean and text tag attributes", "statement": "After layer.active = x, layer.active is bool(x); after layer.desc = s it is s for every string including ''; after layer.desc = None on a layer with a desc it is None and the attribute is gone; after layer.version = x it is float(x); other attributes keep their values.", "quantifier": "all layers, all values", "why_tests_cant": "all states", "anchors": ["sangfroid/field.py:TagAttrField", "sangfroid/field.py:DescField"]}
{"id": "C58", "title": "Unimplemented fields never touch the document", "statement": "Reading or writing a not-implemented field always raises NotImplementedError and changes nothing; type_ cannot be set.", "quantifier": "all layers, all values", "why_tests_cant": "all states", "anchors": ["sangfroid/field.py:NotImplementedField", "sangfroid/field.py:TypeNameField"]}
{"id": "C59", "title": "parent and depth", "statement": "layer.parent is the nearest enclosing layer (None at top level) and tag_depth is the number of enclosing layers; a child of a group has the group as parent and one more depth.", "quantifier": "all positions in all documents", "why_tests_cant": "all trees", "anchors": ["sangfroid/layer/layer.py:Layer.parent", "sangfroid/layer/layer.py:Layer.tag_depth"]}
{"id": "C60", "title": "Animation times come from the file header", "statement": "begin_time and end_time are the file's begin-time and end-time. (Violated for end_time, which reads an attribute named end_time and so always answers 5s for files written by Synfig.)", "quantifier": "all headers", "why_tests_cant": "all headers", "anchors": ["sangfroid/animation.py:Animation.begin_time", "sangfroid/animation.py:TagTimeAttrField"]}
{"id": "C61", "title": "Keyframes are the file's keyframes, in order", "statement": "len(keyframes) is the number of keyframe tags and iteration yields them in file order with their time, name and active flag.", "quantifier": "all documents", "why_tests_cant": "all documents", "anchors": ["sangfroid/keyframe.py:Keyframes"]}
{"id": "C62", "title": "Template replacement is idempotent", "statement": "Running the replacer twice with the same fields gives the same file as running it once, provided the replacement text contains no class or block markers.", "quantifier": "all files, all fields", "why_tests_cant": "all texts", "anchors": ["sangfroid/template/replacer.py:Replacer.handle"]}
{"id": "C63", "title": "Template replacement changes only named blocks", "statement": "Lines outside blocks, and blocks without a replacement, are kept verbatim (block end lines are re-indented to their start); malformed block structure raises ValueError and writes nothing.", "quantifier": "all files", "why_tests_cant": "all texts", "anchors": ["sangfroid/template/replacer.py:Replacer.handle"]}
{"id": "C64", "title": "Template rewriting is crash-safe", "statement": "If the process dies at any point of rewriting a file, the file holds the complete old or the complete new text.", "quantifier": "every crash point", "why_tests_cant": "crash points", "anchors": ["sangfroid/template/replacer.py:Replacer.write_to"]}
{"id": "C65", "title": "Bywords shows growing prefixes ending with the full text", "statement": "For a matching line, the texts scheduled for a text layer are prefixes of its description, strictly growing, each ending at the end of a word (or letter), the last one being the whole description without its trailing white space.", "quantifier": "all descriptions, both modes", "why_tests_cant": "all strings", "anchors": ["bywords/bywords.py:BywordsGroup.matches"]}
{"id": "C66", "title": "Bywords times stay within the subtitle", "statement": "For a matching line, the first text appears at the start of the subtitle, times never decrease, and all are before its end when its duration is positive.", "quantifier": "all lines, all groups", "why_tests_cant": "all", "anchors": ["bywords/bywords.py:BywordsGroup.matches"]}
{"id": "C67", "title": "Bywords pauses are weighted by word length", "statement": "The pause after a word is proportional to the number of letters in the word. (Violated: it is proportional to the length of the whole prefix shown so far.)", "quantifier": "all lines", "why_tests_cant": "all", "anchors": ["bywords/bywords.py:BywordsGroup.matches"]}
{"id": "C68", "title": "Bywords matches exactly on normalised text", "statement": "A line matches a group exactly when the line, lower-cased and stripped of everything but a-z, 0-9 and spaces, equals the group's text layers' descriptions so treated, joined by spaces in display order; every unmatched line is reported.", "quantifier": "all lines and groups", "why_tests_cant": "all", "anchors": ["bywords/bywords.py:BywordsGroup", "bywords/bywords.py:Bywords"]}
{"id": "C69", "title": "Bywords schedules every matched word", "statement": "Every word of every matched line is scheduled. (Violated when two words get the same time: only the last is kept; it holds when all times are distinct.)", "quantifier": "all subtitle files", "why_tests_cant": "all", "anchors": ["bywords/bywords.py:Bywords.__init__"]}
{"id": "C70", "title": "Documents stay trees", "statement": "After any sequence of appends, inserts, param assignments, and setting, animating and un-animating of values, in which nothing is put inside itself, every tag has at most one parent, is listed exactly once among its parent's children, and there are no cycles.", "quantifier": "all operation sequences", "why_tests_cant": "histories", "anchors": ["sangfroid/layer/group.py:Group.append", "sangfroid/layer/group.py:Group.insert", "sangfroid/layer/layer.py:Layer.__setitem__"]}
{"id": "C71", "title": "Appending a layer that is elsewhere moves it", "statement": "group.append(x) where x is already in some group removes it from there: it is afterwards a child of exactly one group, and the other layers keep their order.", "quantifier": "all documents", "why_tests_cant": "aliasing", "anchors": ["sangfroid/layer/group.py:Group.append"]}
{"id": "C72", "title": "Assigning one layer's value to another leaves the source alone", "statement": "After a[name] = b[name], b[name] is still readable and unchanged. (Violated: the value's tag is moved out of b.)", "quantifier": "all documents", "why_tests_cant": "aliasing", "anchors": ["sangfroid/layer/layer.py:Layer.__setitem__"]}
{"id": "C73", "title": "Assigning a value object of the same class copies it", "statement": "layer.field = v, where v is a Value of the field's class, makes the field equal to v. (Violated for Real, Integer, Angle and Time, which raise; it holds for Color, Bool, String and Gradient, and a new vector made from a vector has its coordinates.)", "quantifier": "all values", "why_tests_cant": "all values", "anchors": ["sangfroid/value/simple.py:Simple.value", "sangfroid/field.py:ParamTagField.__set__"]}
{"id": "C74", "title": "Comparing reals", "statement": "== on Real values says whether they differ by at most 0.0001, and is an equivalence relation: reflexive, symmetric and transitive. (Transitivity is violated: the comparison allows a difference of 0.0001.)", "quantifier": "all readable Real values", "why_tests_cant": "a relation over all pairs and triples of values", "anchors": ["sangfroid/value/simple.py:Real._compare_with", "sangfroid/value/simple.py:Simple.__eq__"]}
{"id": "C75", "title": "Assigning a transformation to a transformation", "statement": "t.value = u, where u is a Transformation object, either copies u or leaves t alone. (Violated: it always raises, and t can no longer be read afterwards, even for t.value = t.)", "quantifier": "all transformations", "why_tests_cant": "must hold for every pair of transformations, whatever the order of their parts", "anchors": ["sangfroid/value/transformation.py:Composite.value"]}
{"id": "C76", "title": "A waypoint that is there can be read", "statement": "If iterating over a timeline finds a waypoint at a time, timeline[that time] returns it. (Violated if the text x_y occurs anywhere in the value's XML, for instance inside a string: every subscript then raises ValueError.)", "quantifier": "all timelines", "why_tests_cant": "depends on the text of the whole element", "anchors": ["sangfroid/value/value.py:Timeline.__getitem__"]}
{"id": "C77", "title": "A waypoint stays at the time it was given", "statement": "After timeline[t] = v, the waypoint is at t, also when t is before the start of the animation. (Violated for negative times: the waypoint is found that many frames before the end.)", "quantifier": "all times", "why_tests_cant": "all times", "anchors": ["sangfroid/value/value.py:Waypoint.from_tag", "sangfroid/t.py:T.__init__"]}
{"id": "C78", "title": "Adding to a timeline in place", "statement": "value.timeline += waypoints adds the waypoints, overwriting those at the same times. (Violated: it does so, but then always raises TypeError.)", "quantifier": "all timelines and waypoints", "why_tests_cant": "all", "anchors": ["sangfroid/value/value.py:Timeline.__iadd__", "sangfroid/value/value.py:Value.timeline"]}
{"id": "C79", "title": "Animating a transformation", "statement": "Setting is_animated on a transformation either animates it or leaves it alone. (Violated: it raises TypeError and the transformation loses all its parts.)", "quantifier": "all readable transformations", "why_tests_cant": "all", "anchors": ["sangfroid/value/value.py:Value._set_animated", "sangfroid/value/transformation.py:Composite.value"]}
{"id": "C80", "title": "Adding no waypoints", "statement": "timeline.add([]) changes nothing. (Violated for a value that isn't animated: its value is lost and it can't be un-animated.)", "quantifier": "all values", "why_tests_cant": "all", "anchors": ["sangfroid/value/value.py:Timeline.add"]}
{"id": "C81", "title": "Equal timelines have equal waypoints", "statement": "If two timelines compare equal, their waypoints have the same times, values and interpolations. (Violated: only the times are compared.)", "quantifier": "all pairs of timelines", "why_tests_cant": "a relation over all pairs", "anchors": ["sangfroid/value/value.py:Timeline.__eq__", "sangfroid/value/value.py:Waypoint.__eq__"]}
{"id": "C82", "title": "A time from another animation", "statement": "A waypoint put at a time of another animation, with another frame rate, is at the same place after saving and loading. (Violated: it is read at the same frame number until saved; afterwards its whole seconds are reckoned at this animation's rate. It stays put exactly if the time is before one second or the rates are equal.)", "quantifier": "all whole frames and whole rates", "why_tests_cant": "all frames and pairs of rates", "anchors": ["sangfroid/value/value.py:Timeline._ensure_fps", "sangfroid/value/value.py:Timeline.__setitem__", "sangfroid/t.py:T.__str__"]}
{"id": "C83", "title": "Making a layer doesn't affect other layers", "statement": "Making a layer leaves every other layer's attributes, and the animation's, as they were. (Violated for type_ and version of anything whose element has no such attribute, such as the animation itself: they become those of the newest layer.)", "quantifier": "all layer classes, all histories of layers made, all elements", "why_tests_cant": "depends on the history of all layers made in the process", "anchors": ["sangfroid/layer/layer.py:Layer._construct_empty_tag", "sangfroid/field.py:TypeNameField", "sangfroid/field.py:SynfigVersionField"]}
{"id": "C84", "title": "Searching without recursion", "statement": "find_all(True, recursive=False) returns exactly the children. (Holds for animations; violated for groups, where it returns nothing.)", "quantifier": "all animations and groups", "why_tests_cant": "all documents", "anchors": ["sangfroid/layer/layer.py:Layer.find_all"]}
{"id": "C85", "title": "Animation fields come from the file's header", "statement": "version, width, height, xres, yres, gamma_r, gamma_g, gamma_b, view_box, antialias, fps and bgcolor are what the file's header says. (Violated for the three gammas and view_box: the header spells them with hyphens, and the fields always answer their defaults.)", "quantifier": "all fields, all headers", "why_tests_cant": "all headers", "anchors": ["sangfroid/animation.py:Animation", "sangfroid/field.py:TagAttrField"]}
{"id": "C86", "title": "Any part of an animation will do as a ref", "statement": "T(x, ref) is the same time, or the same exception, for every element of an animation given as ref, however deep, as for the animation itself; outside an animation there is no frame rate.", "quantifier": "all documents, all elements in them, all time arguments", "why_tests_cant": "all depths of nesting", "anchors": ["sangfroid/t.py:_canvas_root", "sangfroid/t.py:T.__init__"]}
{"id": "C87", "title": "Header fields keep what they are set to", "statement": "After animation.f = v for a header field and a value of its type (text on one line), animation.f is v, straight away and after saving and loading again; no other attribute and nothing in the document changes; what is refused leaves the document alone. Setting fps sets the rate at which times are reckoned.", "quantifier": "all header fields, all values, all documents", "why_tests_cant": "all floats, whole numbers and texts", "anchors": ["sangfroid/field.py:TagAttrField.__set__", "sangfroid/animation.py:Animation"]}
{"id": "C88", "title": "Size, view box and background", "statement": "size is the width and height of the header, and follows them when they are set; viewbox is the numbers of the header's view-box in order; background is the colour in the header's bgcolor, to six decimals.", "quantifier": "all headers", "why_tests_cant": "all headers", "anchors": ["sangfroid/animation.py:Animation.size", "sangfroid/animation.py:Animation.viewbox", "sangfroid/animation.py:Animation.background"]}
{"id": "C89", "title": "The number of frames", "statement": "framecount is the number of frames from the one at begin-time to the one at end-time, both included. Setting end_time changes it. (The first holds for whole times, though the documentation gives one less; the second is violated.)", "quantifier": "all headers with whole times", "why_tests_cant": "all pairs of times", "anchors": ["sangfroid/animation.py:Animation.framecount", "sangfroid/animation.py:TagTimeAttrField"]}
{"id": "C90", "title": "Name and description of an animation", "statement": "name is the text of the file's name tag; after animation.desc = s, animation.desc is s and nothing else changes. (Violated when the file has no desc tag, as in a new animation: setting raises AttributeError.)", "quantifier": "all documents, all texts", "why_tests_cant": "all documents", "anchors": ["sangfroid/animation.py:Animation.name", "sangfroid/field.py:NamedChildField"]}
{"id": "C91", "title": "All template files are rewritten, in order", "statement": "handle_all_files() leaves each file as handle() would leave it alone; at the first malformed one it raises, with those before it rewritten and it and those after it untouched. check_everything_was_seen() then complains about exactly the fields that no block of any file is called after.", "quantifier": "all sets of files, none of which has the name of another's temporary file, and all fields", "why_tests_cant": "all disks", "anchors": ["sangfroid/template/replacer.py:Replacer.handle_all_files", "sangfroid/template/replacer.py:Replacer.check_everything_was_seen"]}
{"id": "C92", "title": "Bywords matches subtitles broken over several lines", "statement": "A subtitle that is broken over several lines matches the same groups as one with a space in place of each line break. (Violated: line breaks vanish when texts are normalised, so the words on either side run together, and no group whose text has words there matches.)", "quantifier": "all subtitles, all groups", "why_tests_cant": "all texts", "anchors": ["bywords/bywords.py:BywordsGroup.tidy_string", "bywords/bywords.py:BywordsGroup.matches"]}
{"id": "C93", "title": "Bywords writes the schedule into the text layers", "statement": "After adjusting, the timeline of each text layer of a group that was matched is: nothing at the start, then each text scheduled for it at the frame of its time, each held until the next. (Violated for times below a tenth of a millisecond, which are written with an exponent and misread as being before the start.)", "quantifier": "all schedules, all documents", "why_tests_cant": "all times and texts", "anchors": ["bywords/adjust.py:adjust", "bywords/adjust.py:set_constant_waypoint"]}
{"id": "C94", "title": "Which groups Bywords looks at", "statement": "Bywords considers exactly the groups whose description begins with bywords, in upper or lower case, each with the text layers anywhere in it, the topmost first; of several with the same text, the line goes to the one whose description comes first.", "quantifier": "all documents", "why_tests_cant": "all documents and orders of groups", "anchors": ["bywords/bywords.py:Bywords.__init__", "bywords/bywords.py:BywordsGroup"]}
{"id": "C95", "title": "A group can't be put into itself", "statement": "group.append(x) and group.insert(i, x), where x is the group itself or something that contains it, are refused and change nothing. (Violated: it succeeds, x is then inside itself, and it is no longer in the document.)", "quantifier": "all documents, all groups, everything that contains them", "why_tests_cant": "all trees", "anchors": ["sangfroid/layer/group.py:Group.append"]}
{"id": "C96", "title": "Inserting a layer that is elsewhere moves it", "statement": "group.insert(i, x), where x is already in some group, takes it out of there and puts it right before the child at i; the other layers keep their order, and it looks as it did. (Violated when x is the child at i itself: ValueError, after a line break has been added to the file.)", "quantifier": "all documents, all indices", "why_tests_cant": "aliasing", "anchors": ["sangfroid/layer/group.py:Group.insert"]}
{"id": "C97", "title": "Objects for the same value show the same", "statement": "If two objects have been obtained for the same param of the same layer, then after setting, animating or un-animating the value through one of them, both show what the layer has. (Violated by un-animating: the other object keeps an emptied element that is no longer in the document.)", "quantifier": "all documents, all values", "why_tests_cant": "aliasing", "anchors": ["sangfroid/value/value.py:Value._set_animated", "sangfroid/layer/layer.py:Layer.__getitem__"]}
{"id": "C98", "title": "The truth of a value", "statement": "In a condition, a value counts as true unless it is a boolean that holds false. (Violated: numbers, times, texts and colours that aren't animated count as false whatever they hold, since their length is the number of their waypoints.)", "quantifier": "all values", "why_tests_cant": "all classes of values and contents", "anchors": ["sangfroid/value/value.py:Value.__len__", "sangfroid/value/simple.py:Bool"]}
{"id": "C99", "title": "The truth of a layer", "statement": "In a condition, a layer counts as true. (Violated: it does exactly if there is some layer below it, since its length is the number of those.)", "quantifier": "all layers", "why_tests_cant": "all trees", "anchors": ["sangfroid/layer/layer.py:Layer.__len__"]}
{"id": "C100", "title": "A value equals itself", "statement": "v == v is True, for every value that can be read. (Violated by canvases with a layer in them, which are unequal to themselves, and by values of classes not yet implemented, which raise.)", "quantifier": "all values of every class", "why_tests_cant": "all contents", "anchors": ["sangfroid/value/value.py:Value.__eq__", "sangfroid/value/color.py:Color.__eq__", "sangfroid/value/vector.py:Vector.__eq__"]}
{"id": "C101", "title": "Comparing an Integer with a number", "statement": "An Integer equals a Python number exactly if it holds that number. (It does for ints; violated for floats, which are truncated first: an Integer holding 2 equals 2.75.)", "quantifier": "all ints and floats", "why_tests_cant": "all numbers", "anchors": ["sangfroid/value/simple.py:Integer"]}
{"id": "C102", "title": "Comparing a value with None", "statement": "Comparing a value with None gives False. (Violated: reals, integers and angles raise TypeError, and a false boolean equals None.)", "quantifier": "all values", "why_tests_cant": "all classes and contents", "anchors": ["sangfroid/value/value.py:Value.__eq__", "sangfroid/value/simple.py:Bool"]}
{"id": "C103", "title": "Booleans and text", "statement": "A Bool set to the text 'false', or compared with it, behaves as if the text were False. (Violated: every text but the empty one means True.)", "quantifier": "all texts", "why_tests_cant": "all texts", "anchors": ["sangfroid/value/simple.py:Bool"]}
{"id": "C104", "title": "Comparing a Time with text", "statement": "A Time equals a text exactly if the text, read as in the same animation, is the same time. (It does for texts that give frames; violated for texts that give seconds, which equal no time.)", "quantifier": "all times and texts", "why_tests_cant": "all times and texts", "anchors": ["sangfroid/value/simple.py:Time", "sangfroid/t.py:T.__eq__"]}
{"id": "C105", "title": "Comparing a Color with a tuple", "statement": "A colour equals a tuple exactly if its components are the tuple's, alpha being 1 if left out; in particular it equals the tuple it was last set to. (The second is violated unless each component is the float nearest to some decimal with six places.)", "quantifier": "all colours and tuples", "why_tests_cant": "all floats", "anchors": ["sangfroid/value/color.py:Color.__eq__"]}
{"id": "C106", "title": "Comparing vectors", "statement": "Two vectors are equal exactly if they read as the same tuple, and a vector equals a tuple exactly if it reads as it; equality of vectors is symmetric and transitive. (The first is violated when the file has y before x.)", "quantifier": "all vectors", "why_tests_cant": "all documents", "anchors": ["sangfroid/value/vector.py:Vector.__eq__"]}
{"id": "C107", "title": "Comparing transformations", "statement": "Two transformations are equal exactly if their parts are, in whatever order these come; and one equals the dict it was last set to. (The second is violated unless each coordinate is the float nearest to some decimal with ten places; and comparing with a dict of four other things raises KeyError.)", "quantifier": "all transformations and dicts", "why_tests_cant": "all floats and orders", "anchors": ["sangfroid/value/transformation.py:Composite.__eq__"]}
{"id": "C108", "title": "Assigning a stop of a gradient", "statement": "After gradient[pos] = colour, gradient[pos] is that colour, and every other position has what it had, whatever was assigned before. (So for positions of at most six digits; violated for others: nothing is found there.)", "quantifier": "all gradients, all positions, all histories of assignments", "why_tests_cant": "histories", "anchors": ["sangfroid/value/gradient.py:Gradient.__setitem__", "sangfroid/value/gradient.py:Gradient.__getitem__"]}
{"id": "C109", "title": "Assigning to an animated value stops its animation", "statement": "After value.value = x the value is not animated and holds x. (It is so for numbers, booleans, times and colours; violated for texts, which stay animated with no waypoints, for gradients and transformations, whose timeline can't be read afterwards, and for vectors, which can't be read at all.)", "quantifier": "all animated values, all x", "why_tests_cant": "all timelines", "anchors": ["sangfroid/value/value.py:Value.value", "sangfroid/value/vector.py:Vector.value"]}
{"id": "C110", "title": "A list refused for a timeline changes nothing", "statement": "If assigning to value.timeline raises because of what is in the list, the value is unchanged. (Violated: it has been made animated and emptied by then.)", "quantifier": "all values, all lists", "why_tests_cant": "crash points", "anchors": ["sangfroid/value/value.py:Value._set_waypoints"]}
{"id": "C111", "title": "Read a waypoint, change it, put it back", "statement": "w = value.timeline[t]; changing w's interpolations and value.timeline[t] = w changes just those, at that time only.", "quantifier": "all timelines, all times, all interpolations", "why_tests_cant": "all timelines", "anchors": ["sangfroid/value/value.py:Timeline.__setitem__", "sangfroid/value/value.py:Waypoint"]}
{"id": "C112", "title": "Subscripts of a vector", "statement": "vector[i] is the i-th of its coordinates, counted from the back if i is negative, and anything out of range raises IndexError. (Violated once another value is assigned to the same object: subscripts go on giving the old coordinates.)", "quantifier": "all vectors, all indices", "why_tests_cant": "histories", "anchors": ["sangfroid/value/vector.py:Vector.__getitem__"]}
{"id": "C113", "title": "A change to a timeline that raises changes nothing", "statement": "If timeline[t] = v, del timeline[t] or timeline.add(...) raises, the value and its waypoints are as they were. (Violated: assigning at a time from another animation with another frame rate raises after all waypoints have been removed; so does deleting the only waypoint of a value that isn't in a layer. It holds for times of this animation and values in a layer.)", "quantifier": "all timelines, times and values", "why_tests_cant": "crash points", "anchors": ["sangfroid/value/value.py:Timeline.__setitem__", "sangfroid/value/value.py:Timeline.__delitem__", "sangfroid/value/value.py:Timeline.add"]}
{"id": "C114", "title": "What is written can be read", "statement": "Any document whose names and characters XML allows, with no two attributes of one name in an element, can be opened after it has been saved: every element comes back with its name, its attributes (as text, tabs and line ends in them being spaces), its child elements in order, and the text around them (white space alone being one newline or space).", "quantifier": "all documents, whatever text, quotes and markup characters they hold; both ways of writing empty elements", "why_tests_cant": "all documents and all characters", "anchors": ["sangfroid/format.py:Format._write_to_file", "sangfroid/format.py:FileContextHandler"]}
{"id": "C115", "title": "Opening and saving changes nothing", "statement": "Whatever document was opened, saving it and opening the result gives the same document but for the order in which attributes are written, and saving that gives the same text again. (Violated for documents with tabs or line ends in attributes or carriage returns in text, which character references can put there: they are saved raw and read as spaces and newlines.)", "quantifier": "all files that can be opened", "why_tests_cant": "all files", "anchors": ["sangfroid/format.py:Format._write_to_file", "sangfroid/format.py:FileContextHandler", "sangfroid/animation.py:Animation.save"]}
{"id": "C116", "title": "The new animation", "statement": "Animation() is 480 by 270 pixels, 24 frames a second, from the start to 5 seconds, called 'New animation', without layers and with one active keyframe 'start' at the start; its header fields have their defaults; and after being saved it opens as the same document.", "quantifier": "the new animation, every way of rounding in saving", "why_tests_cant": "it takes a parser to say what the built-in text holds", "anchors": ["sangfroid/format.py:BLANK_ANIMATION", "sangfroid/format.py:Blank", "sangfroid/animation.py:Animation.__init__"]}
{"id": "C117", "title": "Reading values as Synfig writes them", "statement": "An element of a file is recognised by its name (or the type of its animation) as the right class of value. A colour is its r, g, b and a, a vector its x and y, a transformation its offset, angle, skew_angle and scale, whatever order and white space they are written with; a gradient has its stops in the order of the file; numbers, times and booleans are what their text says. A colour that lacks a component, a gradient with fewer than two stops, a vector with other coordinates, or a number without a value raises.", "quantifier": "all elements of the forms Synfig writes, any order, any white space, any texts of numbers", "why_tests_cant": "all files", "anchors": ["sangfroid/value/value.py:Value.from_tag", "sangfroid/value/color.py:Color.value", "sangfroid/value/vector.py:Vector.value", "sangfroid/value/vector.py:Vector.__getattr__", "sangfroid/value/gradient.py:Gradient.value", "sangfroid/value/transformation.py:Composite.value", "sangfroid/value/simple.py:Bool.value"]}
{"id": "C118", "title": "Looking at a timeline", "statement": "Iterating over the timeline of an animated value gives every waypoint of the file once, each with the time, interpolations and value it is written with, in order of time whatever their order in the file; len() is their number. If several are at the same time, the last of them in the file is the one there is. For a value that is not animated there are none.", "quantifier": "all timelines whose waypoints are at different times", "why_tests_cant": "all files", "anchors": ["sangfroid/value/value.py:Timeline.__iter__", "sangfroid/value/value.py:Timeline.__len__", "sangfroid/value/value.py:Waypoint.from_tag", "sangfroid/value/value.py:Value._waypoints"]}
{"id": "C119", "title": "Simple values made from other kinds of objects", "statement": "Assigning to a number, boolean or time anything that stands for one is the same as assigning it: whole numbers, booleans and the text of a number to reals and angles; floats (losing their fraction), booleans and text to integers; any number to a boolean (false only if zero); a T to a time. None and () mean the default. Text that is not a number raises ValueError, anything else TypeError, and nothing changes. A vector takes a pair of numbers, whole or not, and refuses anything else in the same way. (Violated for strings: None is stored as the text 'None'. Violated for vectors: a pair of booleans is accepted, and then the vector can't be read.)", "quantifier": "all values, all objects assigned", "why_tests_cant": "all texts and all numbers", "anchors": ["sangfroid/value/simple.py:Simple.value", "sangfroid/value/string.py:String.value", "sangfroid/value/value.py:Value.__init__"]}
{"id": "C120", "title": "What an animation holds is the same after saving and opening", "statement": "When an animation has been saved and is opened again, every element is where it was, and reads as before: numbers, booleans, times, texts, colours, vectors, gradients, transformations; the waypoints of timelines, with their times, interpolations and values; the class, description, flags, version and parameters of each layer; the layers of each group in their order; the frame rate. (Violated for descriptions and other attributes with tabs or line ends, blank text, and carriage returns.)", "quantifier": "all documents that XML can hold, all places in them, both ways of writing empty elements", "why_tests_cant": "all documents", "anchors": ["sangfroid/animation.py:Animation.save", "sangfroid/format.py:Format._write_to_file", "sangfroid/layer/layer.py:Layer.__getitem__", "sangfroid/layer/group.py:Group.children", "sangfroid/value/value.py:Value._waypoints"]}
{"id": "C121", "title": "Assigning to a canvas", "statement": "After canvas.value = layers, the canvas holds those layers. (Violated: for any list that isn't empty it raises, and the canvas has lost the layers it had; it can't even be assigned its own value. It holds for the empty list.)", "quantifier": "all canvases, all lists", "why_tests_cant": "all histories", "anchors": ["sangfroid/value/canvas.py:Canvas.value"]}
{"id": "C122", "title": "as_python_expression() recreates the value", "statement": "value.as_python_expression() is a Python literal from which the constructor of the value's class makes the same value: numbers, booleans, angles, texts with whatever characters in them, colours, vectors, gradients, transformations. (Violated by times of a second or more, which the constructor refuses; by blend methods, for which it isn't a literal; and by animated values.)", "quantifier": "all values; all Python literals", "why_tests_cant": "all texts, numbers and nestings", "anchors": ["sangfroid/value/value.py:Value.as_python_expression", "sangfroid/value/simple.py:Angle.as_python_expression", "sangfroid/value/simple.py:Time.as_python_expression", "sangfroid/value/string.py:String.as_python_expression", "sangfroid/value/color.py:Color.as_python_expression", "sangfroid/value/gradient.py:Gradient.as_python_expression", "sangfroid/value/transformation.py:Composite.as_python_expression", "sangfroid/value/blendmethod.py:BlendMethod.as_python_expression"]}
{"id": "C123", "title": "The text of a value", "statement": "str(v) shows a number in full, a boolean as True or False, a text as itself, an angle in degrees to six digits, a colour as text which it equals and from which an equal colour can be made, a vector as a tuple; str of an animated value is (animated); repr(v) is the same text after the name of the class, in square brackets. (Violated by animated gradients, which are shown as if all the colours of all waypoints were one gradient, and whose str can raise.)", "quantifier": "all values", "why_tests_cant": "all numbers and colours", "anchors": ["sangfroid/value/value.py:Value.__str__", "sangfroid/value/value.py:Value.__repr__", "sangfroid/value/simple.py:Angle._str_inner", "sangfroid/value/vector.py:Vector._str_inner", "sangfroid/value/gradient.py:Gradient.__str__"]}
{"id": "C124", "title": "Whatever is done to an animation, it can be saved and opened", "statement": "Open a file, or start with Animation(); then set values, waypoints, timelines, parameters, fields, descriptions and header fields, and append, insert and move layers, any number of times, anywhere, whether the calls succeed or raise; then the animation can be saved, and the file can be opened and holds every element, attribute and text. What the constructors make from such arguments is itself such an argument. (Texts with characters which XML forbids, and keys of vectors which can't be names of elements, are accepted too; then the file isn't XML.)", "quantifier": "all files which can be opened; all histories of calls with arguments without forbidden characters", "why_tests_cant": "all histories, including ones with failures", "anchors": ["sangfroid/animation.py:Animation.save", "sangfroid/value/value.py:Value", "sangfroid/value/value.py:Timeline", "sangfroid/layer/layer.py:Layer", "sangfroid/layer/group.py:Group.append", "sangfroid/layer/group.py:Group.insert", "sangfroid/field.py:TagAttrField"]}
{"id": "C125", "title": "The example programs", "statement": "docs/examples/stroop.py, run where there is colours.sif: every text layer whose text is blue gets the colour #ff00ff; everything else in the animation stays as it was; colours.sif and all other files stay as they were, and stroop.sif opens as the result. french.py: every text layer's text becomes bleu if it was blue, rouge if it was red, else 'je ne sais pas quoi'; nothing else changes. If anything raises, nothing is saved. (Violated: one layer of an unknown type anywhere, or a blue text without a colour, stops the program.)", "quantifier": "all documents, all files on the disk, all places in the document", "why_tests_cant": "all documents, including ones that make it fail", "anchors": ["docs/examples/stroop.py:main", "docs/examples/french.py:main", "sangfroid/layer/layer.py:Layer.find_all", "sangfroid/layer/layer.py:Layer.__setitem__", "sangfroid/animation.py:Animation.save"]}
{"id": "C126", "title": "What bywords does to a file", "statement": "bywords changes nothing in an animation but the texts of the text layers in groups whose description begins with bywords and which say what one of the subtitles says; in each of those, the text is empty at first and then is each of the texts scheduled for it, from the frame nearest to its time; other files stay as they were, and if anything raises, so does this one. The subtitles are taken from the file of the same name with .srt. (Violated: a matching layer without a text, or a missing frame rate, or a tiny time stops it.)", "quantifier": "all animations, all subtitles, both letter and word mode, all orders in which Python goes through sets", "why_tests_cant": "all documents and subtitles, including failures", "anchors": ["bywords/adjust.py:adjust", "bywords/bywords.py:Bywords", "bywords/__main__.py:main", "sangfroid/value/value.py:Value.is_animated", "sangfroid/value/value.py:Timeline.__setitem__"]}
{"id": "C127", "title": "Setting one thing leaves the others alone", "statement": "Whatever program sets things about a layer -- its parameters by subscript or by field, the values and timelines of its parameters, its description, whether it is active or excluded from rendering, its version -- in whatever order and however often, and whichever statements raise: every other parameter, by subscript and by field, every other attribute, the layer's class, what names are in it, and the children of a group read as they did. Appending and inserting layers leaves a group's own attributes and parameters alone. (Violated: in a group whose canvas comes before a parameter, nested layers' parameters are changed, and appending a layer hides the group's own.)", "quantifier": "all layers, all programs of such statements, including failing ones", "why_tests_cant": "all histories", "anchors": ["sangfroid/layer/layer.py:Layer.__setitem__", "sangfroid/layer/layer.py:Layer.__getitem__", "sangfroid/field.py:ParamTagField", "sangfroid/field.py:TagAttrField", "sangfroid/value/value.py:Timeline", "sangfroid/layer/group.py:Group.append"]}
{"id": "C128", "title": "The order of independent assignments doesn't matter", "statement": "Statements about different things of a layer, however many, can be run in any order: each raises what it would have raised without the others, and the layer is the same afterwards, but for the order of its attributes.", "quantifier": "all layers, all pairs of statements about different parameters or attributes", "why_tests_cant": "all pairs, all layers", "anchors": ["sangfroid/layer/layer.py:Layer.__setitem__", "sangfroid/field.py:ParamTagField", "sangfroid/field.py:TagAttrField", "sangfroid/value/value.py:Timeline"]}
{"id": "C129", "title": "The last assignment counts", "statement": "If an assignment succeeds -- of a value's value, of a layer's parameter by subscript, of a layer's attribute -- then what it leaves is the same whatever was assigned before, even if that failed halfway. (Violated for the value of a vector: the coordinates assigned before remain, and are what is read.)", "quantifier": "all values of all classes, all pairs of things to assign", "why_tests_cant": "all values and arguments", "anchors": ["sangfroid/value/simple.py:Simple.value", "sangfroid/value/color.py:Color.value", "sangfroid/value/gradient.py:Gradient.value", "sangfroid/value/transformation.py:Composite.value", "sangfroid/value/vector.py:Vector.value", "sangfroid/layer/layer.py:Layer.__setitem__"]}
{"id": "C130", "title": "The text of a layer", "statement": "repr(layer) shows how many layers it is inside, its class, its description as a Python literal if it has any, and for text layers what they say; two layers shown alike agree in all of these, whatever characters are in the texts; the text of a canvas shows its layers in order, and two canvases shown alike have the same classes and descriptions in the same order. It never raises. (Violated by text layers without a readable text, which raise, as does anything that shows them.)", "quantifier": "all layers of all classes at all depths, all texts", "why_tests_cant": "all texts, with quotes, brackets and escapes in them", "anchors": ["sangfroid/layer/layer.py:Layer.__repr__", "sangfroid/layer/layer.py:Layer.tag_depth", "sangfroid/layer/text.py:Text.__repr__", "sangfroid/value/canvas.py:Canvas"]}
{"id": "C131", "title": "The text of waypoints and timelines", "statement": "str(waypoint) shows its time, how it is entered and left, and its value; two waypoints shown alike agree in the text of the time and of the value and in both interpolations, and at whole frames (not before the start) of one file whose rate is a whole number are at the same time. It raises only if str of the value does. str(timeline) shows the class of the value and, in order, each waypoint under its time; for a value that is not animated it shows none.", "quantifier": "all waypoints, all timelines", "why_tests_cant": "all times, interpolations and values", "anchors": ["sangfroid/value/value.py:Waypoint.__str__", "sangfroid/value/value.py:Timeline.__str__", "sangfroid/t.py:T.__str__"]}
{"id": "C132", "title": "The list of blend methods comes from the header", "statement": "etc/scan-synfig-source.py: the names put into the class BlendMethod are exactly those of the header's enumeration, in order of their numbers, without END and BY_LAYER; numbers with a gap or a missing header change no file; in every file the block gets these lines and nothing else changes, and running the program again changes nothing.", "quantifier": "all headers, all sets of files with well-placed markers", "why_tests_cant": "all texts of headers and of files", "anchors": ["etc/scan-synfig-source.py:main", "sangfroid/template/replacer.py:Replacer.handle_all_files"]}
{"id": "C133", "title": "The list of symbols has every class of layer with its own symbol", "statement": "etc/get-symbols.py lists exactly the classes derived directly from Layer, each once, and fails only if one of them is defined twice; the symbol listed for a class is the one set in its body, if there is one. (Violated: a symbol set after the body -- in another class, or in the next file -- replaces it if no class of layer begins in between; this happens to Rotate.)", "quantifier": "all sets of source files", "why_tests_cant": "all texts, in whichever order the files are read", "anchors": ["etc/get-symbols.py"]}
{"id": "C134", "title": "Comparing numbers with text", "statement": "Comparing an Integer, Real or Angle with a text never raises: it is equal exactly if int() or float() of the text is its number (for a Real, within 0.0001), and unequal to a text that is no number.", "quantifier": "all finite numbers, all texts of finite numbers or of none (for infinities and NaN see C166)", "why_tests_cant": "all texts and numbers", "anchors": ["sangfroid/value/simple.py:Simple.__eq__", "sangfroid/value/simple.py:Real._compare_with"]}
{"id": "C135", "title": "Values as dictionaries", "statement": "keys(), values(), items(), len() and subscripts of a value agree: items() has each key once with what value[key] gives, keys() and values() are the two halves of items() in the same order, len() is their number, and any other key raises KeyError. (Violated by vectors with y before x, whose keys() alone are sorted; by animated vectors; and by transformations with a part twice. Holds for gradients and timelines, whose keys are the times of the waypoints.)", "quantifier": "all gradients, transformations, vectors and timelines", "why_tests_cant": "all elements a file may have, whatever their order", "anchors": ["sangfroid/value/gradient.py:Gradient", "sangfroid/value/transformation.py:Composite", "sangfroid/value/vector.py:Vector", "sangfroid/value/value.py:Timeline"]}
{"id": "C136", "title": "Searching by the value of a field", "statement": "find_all(k=v), where k is the name of a parameter (or of a part of a group's transformation), returns, each once and in the order of the document, exactly those layers below which have a value of that name that equals v: for a number, reals within a ten-thousandth, angles that are the same, integers that are the same after dropping decimals, and bools that are true just if the number isn't 0; for a text, strings that are the same, and numbers and colours that the text denotes. A layer whose field has just been set to a number (up to 10^11), flag, text or hexadecimal colour is found by a search for that, unless the search raises. If comparing the value of any one layer raises an exception, then so does the search: as when searching for None by a number, or for anything by a blend method.", "quantifier": "all documents, field names, values searched for and places of layers, all numbers being finite", "why_tests_cant": "Which layers are found depends on every layer in the document, on its class's fields and on each class's own notion of equality.", "anchors": ["sangfroid/layer/layer.py: find_all", "sangfroid/value/simple.py: Simple.__eq__", "sangfroid/value/value.py: Value.__eq__", "sangfroid/field.py: ParamTagField"]}
{"id": "C137", "title": "What a colour can be set to", "statement": "A colour can be set to a text only if the text is six or eight hexadecimal digits, with or without a hash; any other text, a tuple of the wrong length and any other kind of object raise ValueError and leave the colour as it was. (Violated: each pair of characters may also be one digit with a sign or a blank, so '#-1-1-1' is accepted and gives channels below zero. Everything else is refused.)", "quantifier": "all texts of ASCII characters of any length, all objects, whatever the colour held", "why_tests_cant": "infinitely many texts; which are let through depends on what int() accepts", "anchors": ["sangfroid/value/color.py:Color.value"]}
{"id": "C138", "title": "A change to one thing changes one stretch of the file", "statement": "However a parameter of a layer is set, animated or changed, what save writes differs from what it would have written before only in the stretch that is the text of that parameter's value; setting an attribute of a layer (description, active, excluded from rendering, version) replaces, removes or puts in the text of that attribute only, and so does setting a field of the animation's header; appending or inserting a layer, where the canvas has something in it already, puts in the text of that layer (for insert with a line break on either side) at one point, and everything around it stays character for character.", "quantifier": "all documents, all layers anywhere in them, all parameters and attributes, all statements about them, whether they succeed or raise", "why_tests_cant": "infinitely many documents and statements; a test compares a few files", "anchors": ["sangfroid/layer/layer.py:Layer.__setitem__", "sangfroid/field.py:ParamTagField.__set__", "sangfroid/field.py:TagAttrField.__set__", "sangfroid/layer/group.py:Group.append", "sangfroid/layer/group.py:Group.insert", "sangfroid/format.py:Sif.save"]}
{"id": "C139", "title": "Running bywords again", "statement": "What bywords makes of an animation does not depend on the order in which Python goes through a set of layers, nor on what was looked at before in the same program. Running it a second time with the same subtitles changes nothing. Running it with new times for the same words gives exactly what it would have given had it never been run before.", "quantifier": "all animations, all pairs of subtitles in which the second says all the first says, both letter and word mode, all orders in which Python goes through sets", "why_tests_cant": "all documents and subtitles; which order a set has differs from run to run", "anchors": ["bywords/adjust.py:adjust", "bywords/bywords.py:Bywords", "bywords/bywords.py:BywordsGroup", "sangfroid/value/value.py:Value.is_animated", "sangfroid/layer/group.py:Group.find_all"]}
{"id": "C140", "title": "Which texts are times", "statement": "T(text) is defined by what the text says: the text is cut at every part of the form -?[0-9.]+[hmsf]; it is accepted just when every piece which isn't blank is a number followed by a unit, no unit is given twice, seconds come with a frame rate, and frames that go with seconds aren't negative. Then its length is the one the h, m, s and f parts say, and any other text is refused with ValueError. Text which isn't a time specification, such as a number with no unit, isn't accepted.", "quantifier": "every text, every frame rate or none", "why_tests_cant": "there are infinitely many texts, and what matters is those no one thought of", "anchors": ["sangfroid/t.py: T.__init__, T._parse_time_spec"]}
{"id": "C141", "title": "What is shown of an animation's keyframes", "statement": "str of a keyframe shows its time, its name as a Python literal, and whether it is inactive, and it can be read back: two keyframes shown alike have the same time text, name and activity. str(animation.keyframes) shows the animation with its description and then each keyframe in the order of the file, one to a line, so that two animations whose keyframes are shown alike have as many keyframes, which agree one by one, whatever line ends, quotes or brackets there are in names and descriptions. It fails only if some keyframe's time or activity can't be had, and then as the first such keyframe does.", "quantifier": "all animations, all keyframes, all names and descriptions", "why_tests_cant": "names can be any text, including text that looks like further keyframes", "anchors": ["sangfroid/keyframe.py: Keyframe.__str__, Keyframes.__str__", "sangfroid/layer/layer.py: Layer.__repr__", "sangfroid/animation.py: Animation.keyframes"]}
{"id": "C142", "title": "The header and the keyframes are the same after saving and opening", "statement": "After an animation is saved and opened again, every header field (sizes, resolutions, gammas, frame rate, background, and so on), the size, the view box, the background colour, the times at which it begins and ends, the number of frames, the name, the description, and every keyframe with its time, name and activity are what they were; so after opening a file, setting any header fields to values of theirs, saving, and opening again.", "quantifier": "all animations, all header fields and all values set to them, in any order", "why_tests_cant": "header fields are kept as Python numbers until they are written, and attributes are sorted, so each kind of value takes another way", "anchors": ["sangfroid/animation.py: Animation", "sangfroid/field.py: Field.__get__, Field.__set__", "sangfroid/keyframe.py: Keyframe, Keyframes", "sangfroid/format.py: Format.save"]}
{"id": "C143", "title": "Documents don't affect one another", "statement": "Whatever program is run on things that aren't in a document (other documents, layers and values not in any), whatever it makes, moves, sets, animates and un-animates, and whichever of its statements raise: that document and everything in it look as they did, and what is in it is what was in it.", "quantifier": "all reachable states of memory, all documents, all programs that are given nothing inside the document and put nothing inside itself", "why_tests_cant": "Beautiful Soup objects are shared and moved, so it depends on the whole history of what has been put where", "anchors": ["sangfroid/layer/group.py: Group.append, Group.insert", "sangfroid/layer/layer.py: Layer.__setitem__", "sangfroid/value/value.py: Value.value, Value.is_animated, Value.timeline"]}
{"id": "C144", "title": "A change in memory shows exactly where it was made", "statement": "After a value is set, animated or un-animated, or a param is assigned to: every element that contains it looks as it did, with the new value where the old one was, and everything else, in the same document or elsewhere, looks as it did.", "quantifier": "all documents in memory, all values and params in them, all new contents", "why_tests_cant": "several Python objects share the elements of a document, and elements are emptied and replaced", "anchors": ["sangfroid/layer/layer.py: Layer.__setitem__", "sangfroid/value/value.py: Value.is_animated", "sangfroid/value/simple.py: Simple", "sangfroid/value/vector.py: Vector"]}
{"id": "C145", "title": "Searching by what every layer has", "statement": "find_all(active=b), find_all(exclude_from_rendering=b), find_all(desc=s), find_all(desc=None) and find_all(version=q) find exactly the layers below with that attribute as the file says (active and not excluded, if it doesn't say; version 0), each once, in document order; and they raise no exception if every layer is of a known type. (Violated for versions: one layer whose version isn't a number makes every search by version raise.)", "quantifier": "all documents, all flags, texts and numbers", "why_tests_cant": "it depends on every layer in the document, and on how each attribute happens to be written", "anchors": ["sangfroid/layer/layer.py: Layer.find_all, Layer.active, Layer.exclude_from_rendering, Layer.desc, Layer.version", "sangfroid/field.py: Field.__get__"]}
{"id": "C146", "title": "Bywords can be used again", "statement": "`bywords` saves over the file it read, so people run it again after changing the subtitles. Using `adjust` any number of times on an animation, with the same or other subtitles, ends without an exception if each could be used on its own, and finds the same groups each time. In the end the text of each layer in a bywords group shows what the last of the subtitles with a line for that group schedule for it, whatever was there before; a second use with the same subtitles leaves what is shown as it was; texts of groups for which none has a line, and everything else in the animation, are as they were in the beginning.", "quantifier": "every animation with a frame rate whose bywords groups have strings for texts, every sequence of uses with every list of subtitles, letter by letter or word by word, and every order in which Python goes through a set", "why_tests_cant": "histories of uses on documents of any shape: each use rewrites the elements which the next one reads", "anchors": ["bywords/__main__.py:main", "bywords/adjust.py:adjust", "bywords/bywords.py:Bywords", "bywords/bywords.py:BywordsGroup"]}
{"id": "C147", "title": "The ways of writing a search come to the same", "statement": "A type may be given to `find_all` by position or as `type=`, as text or as a class, and criteria may be given as keywords or in `attrs`: however it is written, the same layers are found. The order of the criteria makes no difference. A search for several criteria at once finds what a search for some of them and a search for the others find on their own. With a flag or a function in first place the other criteria don't count. Two positional arguments, a criterion given twice and a first argument of another kind are refused.", "quantifier": "every document, every set of criteria however split between keywords and attrs, and every order of them", "why_tests_cant": "equality of two searches over all documents and all ways of dividing the criteria", "anchors": ["sangfroid/layer/layer.py:Layer.find_all"]}
{"id": "C148", "title": "The shortcuts of a group over time", "statement": "Whatever is assigned to group.offset, group.angle, group.skew_angle and group.scale, in whatever order: each reads what was last assigned to it, nothing else in the group changes, a refused assignment changes nothing, and layers can still be searched for by their shortcuts. (Violated: only the last assignment counts, the other three raise KeyError and the whole transformation AssertionError, a refused assignment loses all four, and a search by another shortcut raises. Assigning all four parts to the transformation helps. An animated transformation can be neither read nor assigned to: KeyError, nothing changed.)", "quantifier": "every group with a transformation of its own, every sequence of assignments of any values, refused ones included, and every document the group is in", "why_tests_cant": "histories of assignments of any length", "anchors": ["sangfroid/field.py:ShortcutField", "sangfroid/layer/group.py:Group", "sangfroid/value/transformation.py:Composite", "sangfroid/layer/layer.py:Layer.find_all"]}
{"id": "C149", "title": "Searching by a time", "statement": "find_all(k=v), where k is the name of a time parameter (duration, time_offset, delay and so on), finds exactly those layers below whose time, at the frame rate of the animation that they are in, is v, whether v is given as a number of frames, as text or as a T; a layer whose time has just been set to a number of frames is found by that number. (Violated: text in seconds finds nothing, not even the text that is in the file; a T from an animation with another rate is taken by its frames; one time that can't be read makes every search by that name raise.)", "quantifier": "all documents, frame rates, names of fields, numbers, texts and times", "why_tests_cant": "ranges over all documents and all ways of writing a time", "anchors": ["sangfroid/layer/layer.py:Layer.find_all", "sangfroid/value/simple.py:Time", "sangfroid/value/simple.py:Simple.__eq__", "sangfroid/t.py:T"]}
{"id": "C150", "title": "Times between frames", "statement": "T(str(t), ref) is the same instant as t also if t isn't at a whole frame. (Violated: the frames past the last whole second are written with six digits, so the time read back is within five millionths of a second of t; it is exact if six digits are enough. And if t is less than a ten-thousandth of a frame past a whole second, as happens when times are added up in floating point, its text has an exponent, which T takes for a negative number of frames: it refuses the text with ValueError, or in the first second makes a time before the start of it. A time before the start comes back likewise if its text has at most one of hours, minutes and seconds.)", "quantifier": "all times within 2^53 frames of the start, all whole frame rates from 1 to 999999, and times without a frame rate", "why_tests_cant": "ranges over all times and frame rates; the failing times are a tiny part of all", "anchors": ["sangfroid/t.py:T.__str__", "sangfroid/t.py:T._parse_time_spec", "sangfroid/t.py:TIMESPEC_RE"]}
{"id": "C151", "title": "Running the bywords program on a file it has saved", "statement": "The bywords program can be run on a file again and again, with the same subtitles or others: no run fails, and in the end the file holds the animation it would hold if it had been opened once, every use of bywords made on that, and the result saved. Running it twice with the same subtitles leaves what it left the first time. (Violated: if a word or letter begins less than a ten-thousandth of a frame after a whole second, as rounding makes some do, the text of that time in the file can't be read, and the next run fails with ValueError; letters of a six-letter word shown over 1.4 seconds are such a case.)", "quantifier": "all files with animations bywords can be used on, all sequences of runs with all subtitles, all orders of sets, all whole frame rates from 1 to 999999", "why_tests_cant": "ranges over all histories of runs; each run reads what an earlier run wrote, with times rounded on the way", "anchors": ["bywords/adjust.py:adjust", "bywords/__main__.py:main", "sangfroid/t.py:T.__str__", "sangfroid/animation.py:Animation.save"]}
{"id": "C152", "title": "A program killed while it runs", "statement": "Whenever a program that opens an animation, works on it and saves it is killed, in the middle of any run of any sequence of runs, no file other than the one it saves to has changed, and that one can still be opened and holds what one of the runs left in it. (Violated: every run that would succeed has a moment at which, if it is killed, the file holds neither what it held before nor what it would hold afterwards, and can't be opened. What does hold: at any moment the file holds what some run left in it, or a beginning of that.)", "quantifier": "all programs, all files, all sequences of runs, every point of every run", "why_tests_cant": "ranges over all crash points of all histories", "anchors": ["bywords/__main__.py:main", "sangfroid/format.py:Sif.save", "sangfroid/format.py:Sifz.save", "sangfroid/animation.py:Animation.save", "docs/examples/stroop.py"]}
{"id": "C153", "title": "Animations saved to one file at the same time", "statement": "If several processes save animations to the same file at the same time, then whatever the order in which the system lets them write, in the end the file holds what one of them saved, and no other file has changed. (Violated: the file may hold the beginning of one followed by the rest of another, and may so hold a third animation which nobody saved. What does hold: if all save the same the file holds that; if they take turns it holds what one of them saved; and in any case no byte up to the length of some one of them is other than what one of them wrote there.)", "quantifier": "any number of processes, whatever they save, all orders of their steps, all sizes of the pieces written, whether or not all come to an end", "why_tests_cant": "ranges over all schedules", "anchors": ["sangfroid/format.py:Sif.save", "sangfroid/format.py:Sifz.save", "sangfroid/animation.py:Animation.save"]}
{"id": "C154", "title": "Programs run on one file at the same time", "statement": "If several programs, such as bywords, are run on the same file at the same time, the file holds in the end what it would hold if they had been run one after another in some order, and each program ends as it would in that order. (Violated: what one of them did may be lost, though both end well; and a program may find the file empty and end with ValueError. It holds if none begins while another is busy.)", "quantifier": "any number of programs, all files, all orders of their steps", "why_tests_cant": "ranges over all schedules", "anchors": ["bywords/__main__.py:main", "sangfroid/animation.py:Animation.save", "sangfroid/animation.py:Animation.__init__", "sangfroid/format.py:Sif.save"]}
{"id": "C155", "title": "However a file is written, it opens as the same animation", "statement": "What an animation is depends on the document in its file and not on how that is written: which line ends, quotes and white space in tags are used, whether characters are written as themselves, by name or by number, and whether elements with nothing in them have end tags makes no difference to what is opened. And every document that can be opened can be written in such a way that it opens as itself.", "quantifier": "all documents, and all ways to write each", "why_tests_cant": "There are infinitely many ways to write every document; a test tries a few.", "anchors": "sangfroid/format.py: Format.load, from_file; sangfroid/animation.py: Animation.load"}
{"id": "C156", "title": "Comments and suchlike outside the root make no difference", "statement": "A file which holds an animation can be opened whatever else XML lets it hold before or after its root element: white space, comments, a document type, processing instructions. (Violated: none with a comment, a document type or a processing instruction there can be opened; Animation raises AssertionError. So it does for a file without a root.)", "quantifier": "all documents, all ways to write them, and everything that may come before and after the root", "why_tests_cant": "There is no bound on what may come before and after the root; that every such file fails is seen from no number of files.", "anchors": "sangfroid/animation.py: Animation.__init__; sangfroid/format.py: FileContextHandler"}
{"id": "C157", "title": "Waypoints between frames survive saving", "statement": "When a program has put waypoints at any times at or after the start, saving the animation and opening it gives as many waypoints, in the same order, each within five millionths of a second of where it was, and with the same interpolations and value. (Violated: two waypoints less than a hundred-thousandth of a second apart may become one; and a waypoint less than a ten-thousandth of a frame past a second makes the whole timeline unreadable, or is moved to before the start. And at frame rates which are fractions, 23.976 among them, two waypoints may change places.)", "quantifier": "all animations, all timelines in them, all times at or after the start and all frame rates up to 999999", "why_tests_cant": "The text of a time has six digits of the frames past the second, so whether two times keep their order depends on how every pair of numbers is rounded.", "anchors": "sangfroid/t.py: T.__str__, T.__init__; sangfroid/value/value.py: Value.waypoints, Waypoint; sangfroid/animation.py: Animation.save"}
{"id": "C158", "title": "Frame rates that aren't whole numbers", "statement": "T(str(t), ref) is the same instant as t at any frame rate, for t at a whole frame; so a waypoint put at a whole frame is still there when the animation has been saved and opened. (Violated at the rates of film and television: the text of a time gives whole seconds and then the frames past them, with six digits, and these aren't a whole number at such rates. At 29.97 frames per second a waypoint at frame 330 is no longer there after saving and opening, but at a frame a little before it. It holds at rates that are a whole number of eighths below a thousand. At any rate the time read back is within five millionths of a second of t, unless it is less than a ten-thousandth of a frame past a second.)", "quantifier": "all frame rates up to 999999, all times at or after the start, all animations", "why_tests_cant": "which frames are moved depends on the rounding of floats at each frame and rate", "anchors": ["sangfroid/t.py:T.__str__", "sangfroid/t.py:T._parse_time_spec", "sangfroid/value/value.py:Waypoint.time"]}
{"id": "C159", "title": "Values put in a timeline are copied", "statement": "A value object assigned at a time of a timeline (timeline[t] = v), or in a waypoint that is added to it, is copied: the waypoint holds the value as it is, the object assigned and the rest of the animation look as they did, and the timeline can be used afterwards. In particular a value can be put at a time of its own timeline, c.radius.timeline[0] = c.radius. (Violated for a value's own timeline, whenever the value isn't animated: the value is lost, for its element is emptied before it is looked at. The only waypoint holds an empty element, nothing is raised, and the timeline can't be used any more. It holds for every other value.)", "quantifier": "all animations, all values and timelines in them, all times", "why_tests_cant": "it depends on which element of the document is inside which, and on the order of emptying one and copying the other", "anchors": ["sangfroid/value/value.py:Timeline.__setitem__", "sangfroid/value/value.py:Timeline.add", "sangfroid/value/value.py:Value.is_animated", "sangfroid/value/value.py:Waypoint.__init__"]}
{"id": "C160", "title": "Assigning what was read changes nothing", "statement": "Assigning to a value what was just read from it (v.value = v.value), to a layer's attribute what it reads as (layer.desc = layer.desc, and likewise active, exclude_from_rendering and version), or to an animation's header field what it reads as, succeeds, and it then reads as it did. (Violated: transformations are destroyed, and canvases emptied; animated texts lose their waypoints and animated vectors stop being animated; reals are rounded to ten decimals and the components of colours to 256 levels; a vector's element gets its coordinates once more; a layer's default version turns from text into a number. It holds for integers, booleans, angles, texts, whole times, reals of at most ten decimals, gradients, the hex text of colours, what vectors read as, the attributes of layers and the header.)", "quantifier": "all values of all classes, all layers and animations, whatever texts their elements have", "why_tests_cant": "the texts that can be read are infinitely many more than those that are written, so reading and writing are different for most of them", "anchors": ["sangfroid/value/simple.py:Simple.value", "sangfroid/value/color.py:Color.value", "sangfroid/value/vector.py:Vector.value", "sangfroid/value/gradient.py:Gradient.value", "sangfroid/value/transformation.py:Composite.value", "sangfroid/value/string.py:String.value", "sangfroid/field.py:TagAttrField", "sangfroid/animation.py:TagTimeAttrField"]}
{"id": "C161", "title": "Opening a file while it is saved to", "statement": "If Animation(name) is called while another process saves to the same file, it gives the animation that was there before or the one that is being saved. (Violated: it may give an animation which is neither, made of the first part of the one and the rest of the other; or of a part only; or raise ValueError because the file is empty for a moment. It gives what is in the file if that stays the same from the first look at it to the end.)", "quantifier": "all contents of the file before and all contents saved to it, all sizes of the pieces in which they are read and written, and all orders of the steps", "why_tests_cant": "Which bytes are read depends on how the steps of two processes are interleaved; a test runs one of the many orders, usually the harmless one.", "anchors": ["sangfroid/animation.py:Animation.__init__", "sangfroid/format.py:Format.from_filename", "sangfroid/format.py:Sif.main_file", "sangfroid/format.py:Sif.save", "sangfroid/format.py:Sifz.main_file"]}
{"id": "C162", "title": "A source file rewritten by several processes at the same time", "statement": "If several processes call Replacer.write_to for the same file at the same time, then at every moment the file holds its old text or the complete text of one of them, no other file changes but the temporary one, and each call ends without an exception. (Violated: they share the temporary file, and so one of them may rename it while it holds any part of another's text; in the end the file may hold a mixture, and one of them have raised FileNotFoundError. It holds if none opens the temporary file before another is done with it; and other files are never touched.)", "quantifier": "any number of processes, all texts, all sizes of the pieces they are written in, all orders of the steps, and every moment", "why_tests_cant": "the order in which the steps of processes come is up to the operating system; a test would have to hit the short time between opening and renaming", "anchors": ["sangfroid/template/replacer.py:Replacer.write_to", "sangfroid/template/replacer.py:Replacer.handle"]}
{"id": "C163", "title": "Saving to a disk without enough room", "statement": "If there isn't room on the disk for an animation, save() raises an exception; it never returns with only part of the file written. What is in the animation, and all other files, are as they were, the file which was to be saved can still be opened as it was, and saving again as soon as there is room comes out as if nothing had gone wrong, however often and under whatever names it was tried before. (Violated in one respect: the file is written over in place, so that what it held is lost.)", "quantifier": "all animations, disks, names, amounts of room, and sequences of attempts", "why_tests_cant": "a test would need a disk which is full at a given byte; there are as many cases as bytes in the file, and any sequence of attempts may come before", "anchors": ["sangfroid/animation.py:Animation.save", "sangfroid/format.py:Sif.save", "sangfroid/format.py:Sifz.save"]}
{"id": "C164", "title": "Rewriting the source files, interrupted and run again", "statement": "If Replacer.handle_all_files() is interrupted, any number of times and at whatever points (the process is killed, or there is no room on the disk), and is then run to its end, the disk is as if it had been run once and never interrupted; no temporary files are left. (Violated where replacing a block takes away a class's name which a later block needs: then a run after an interruption raises.)", "quantifier": "all files, replacement texts, sets of files, and sequences of interruptions at any points", "why_tests_cant": "there are as many points to be interrupted at as characters written, and any sequence of interruptions may come before the last run", "anchors": ["sangfroid/template/replacer.py:Replacer.handle_all_files", "sangfroid/template/replacer.py:Replacer.handle", "sangfroid/template/replacer.py:Replacer.write_to"]}
{"id": "C165", "title": "Files hold what was last saved to them", "statement": "A program may make, open, change and save any number of animations, and go on when something raises. Files then behave as a store of documents. Opening a file gives the document that was last saved to it successfully, as it was when it was saved, or what was there in the first place if nothing has been; what becomes of an animation after it is saved or opened makes no difference to the file, nor to other animations opened from it; saving one animation touches no file but the one it is saved to, and no other animation; and what raises, and what, depends on nothing but this store.", "quantifier": "all documents, disks, and finite sequences of statements which make, open, change and save animations, with or without names, whether or not they raise", "why_tests_cant": "a test runs one sequence; this is about all of them, and about how animations, their names and files are tied together over time", "anchors": ["sangfroid/animation.py:Animation.__init__", "sangfroid/animation.py:Animation.save", "sangfroid/format.py:Format", "sangfroid/format.py:Sif", "sangfroid/format.py:Sifz", "sangfroid/format.py:Blank"]}
{"id": "C166", "title": "Numbers that aren't finite", "statement": "Infinities, NaN and numbers too large for floating point are like other numbers. Reading text as a time raises nothing but ValueError; a time can always be written as text, and reads back as itself; times are in order; frame rates are positive; and a real number or an angle reads back as what was assigned, and equals itself. (Violated: a time infinitely long, such as T('inff') or one of 400 digits, is accepted, but its text is a ValueError, so that an animation with a waypoint there can't be saved. A NaN time is more than everything and everything is more than it. A frame rate of NaN is accepted. An infinite real number doesn't equal itself.)", "quantifier": "all texts, numbers, frame rates and values, finite or not", "why_tests_cant": "it is about all texts and all numbers, and about numbers that nobody thinks of when writing tests", "anchors": ["sangfroid/t.py:T.__init__", "sangfroid/t.py:T._parse_time_spec", "sangfroid/t.py:T.__str__", "sangfroid/t.py:T._compare", "sangfroid/value/simple.py:Simple.value", "sangfroid/value/simple.py:Real._compare_with"]}
{"id": "C167", "title": "Comparing gradients", "statement": "Two gradients whose colours can be read are equal exactly if they have stops at the same positions with equal colours, in whatever order the stops come in the file; and a gradient equals the dict of hexadecimal colours it was last set to. (The second is violated unless each position is the float nearest to a decimal of six significant digits, since only so many are written.)", "quantifier": "all pairs of gradients, and all dicts of positions and colours", "why_tests_cant": "it is about all gradients with any number of stops, in any order", "anchors": ["sangfroid/value/gradient.py:Gradient.value", "sangfroid/value/value.py:Value.__eq__", "sangfroid/value/color.py:Color.__eq__"]}
{"id": "C168", "title": "Changing the frame rate of an animation", "statement": "After animation.fps = r, nothing else in the document has changed, and every waypoint is still at the moment it was at, so that timelines keep their waypoints and their order. (The second is violated: a time is written as whole seconds and frames, and its seconds come to be r frames each, so that it stays where it was exactly if it is at a whole second. At a higher rate waypoints keep their order; at a lower one some change places or come to be one. Times that a program has set and not yet saved keep their frame numbers instead, until they are saved. The number of frames is what the header gives, with seconds of r frames.)", "quantifier": "all documents, all whole frame rates from 1, all times that are written as whole seconds and frames, all timelines of such times", "why_tests_cant": "it is about all timelines, times and pairs of frame rates", "anchors": ["sangfroid/t.py:T.__init__", "sangfroid/t.py:T._parse_time_spec", "sangfroid/animation.py:Animation", "sangfroid/value/value.py:Value.__iter__"]}
{"id": "C169", "title": "Groups over time are lists", "statement": "However layers are appended to and inserted in the groups of a document, in any order, new ones or ones moved from one group to another, each group's children are what becomes of a list of layers under the same operations: a layer that is put somewhere is taken from where it was, and the others keep their order; the operations that are refused are the same (an index out of range; the last child appended again, or a child inserted before itself, see C71 and C96) and change no group's children. No layer is lost, and none is in two groups.", "quantifier": "all documents, sets of groups, and finite sequences of appends and inserts in which nothing is put inside itself (see C95), the layers are of known types, and the params a group has before its canvas have no layers or canvases in them", "why_tests_cant": "it is about all histories of any length, in any number of groups", "anchors": ["sangfroid/layer/group.py:Group.append", "sangfroid/layer/group.py:Group.insert", "sangfroid/layer/group.py:Group.children", "sangfroid/animation.py:Animation"]}
{"id": "C170", "title": "A layer moved between animations", "statement": "A layer that is appended to, or inserted in, any group of another animation keeps its waypoints: the same ones, in the same order and at the same moments. Nothing changes for what isn't in the layer. (A layer keeps looking the same, but its times are reckoned with the rate of the animation it is in: a time written in seconds and frames has as many seconds of the new animation and as many frames. So waypoints stay at the same moment only at whole seconds or if the rates are the same, and keep their order for certain only if the new rate is no less. In a layer that isn't in an animation yet, times with seconds in them are refused.)", "quantifier": "all documents in memory, layers, groups of any depth, positions, whole frame rates of the two animations, and times in whole seconds and frames up to 2**53 frames", "why_tests_cant": "it is about every pair of documents, with layers at any depth, and every pair of rates", "anchors": ["sangfroid/layer/group.py:Group.append", "sangfroid/layer/group.py:Group.insert", "sangfroid/t.py:_canvas_root", "sangfroid/t.py:T.__init__", "sangfroid/value/value.py:Timeline.__iter__"]}
{"id": "C171", "title": "Moving layers in a loop over a group", "statement": "A loop over a group's children (for x in group.children, or for x in group) in which each layer is moved to another group, by append or insert, does the same as if the children had been listed first: each layer is come to once, in order. So with other.append(x) in the loop, group ends up empty and other has the layers it had followed by those of group, and all other groups are as they were. So it is with a loop in which a parameter of each layer is assigned to, x[f] = v; and likewise if the layers are appended to the same group. (The last is violated: that always raises ValueError unless the group is empty; layers can be passed over, or come to twice, and though none is lost, their order afterwards is another.)", "quantifier": "all documents in memory, groups, and numbers of layers; moves to any other groups, as long as none of the layers has one of those groups in it (see C95)", "why_tests_cant": "the loop goes through a list which is being changed; it is about every number and arrangement of layers and of what is between them", "anchors": ["sangfroid/layer/group.py:Group._get_children", "sangfroid/layer/group.py:Group.children", "sangfroid/layer/layer.py:Layer.__iter__", "sangfroid/layer/group.py:Group.append", "sangfroid/layer/group.py:Group.insert"]}
{"id": "C172", "title": "Putting the layers of a group in another order", "statement": "If a group's layers are listed in another order (sorted by whatever key, say) and appended to the group one after another, the group has them in that order. (Violated if the first of them is the group's last layer to begin with: ValueError is raised and nothing changes. So the order of the layers can never be reversed in this way, and a group with a single layer can't be sorted.)", "quantifier": "all documents in memory, groups, and orders of their layers", "why_tests_cant": "it is about every permutation of every number of layers", "anchors": ["sangfroid/layer/group.py:Group.append", "sangfroid/layer/group.py:Group.children"]}
{"id": "C173", "title": "Loops over a timeline that change it", "statement": "A loop over a value's timeline may change that timeline: it comes to the waypoints there were when it began, each once, in order of time. So for w in timeline: del timeline[w.time] raises nothing and leaves a value that isn't animated and is what it was at its last waypoint. And for w in timeline: del timeline[w.time]; timeline[w.time.frames + d] = w moves all the waypoints by d, keeping their values and interpolations, if d is negative (and none would be put before the start); or if d is positive and the loop is over reversed(list(timeline)). If d is positive and the loop goes forwards, exactly those waypoints which are put where there was another are lost, so nothing is lost just if no two are d apart.", "quantifier": "all timelines without waypoints before the start, of values in a document with a frame rate; all d, and ways of giving the time", "why_tests_cant": "it is about every number and spacing of waypoints, and about turns of the loop undoing one another", "anchors": ["sangfroid/value/value.py:Timeline.__iter__", "sangfroid/value/value.py:Timeline.__delitem__", "sangfroid/value/value.py:Timeline.__setitem__", "sangfroid/value/value.py:Value._set_waypoints"]}
{"id": "C174", "title": "Finding and counting layers after they have been moved", "statement": "When a layer has been appended to a group or animation or inserted in one, wherever it was before: the layer, and each layer below it, has the same layers below it as before (in find_all(True), and in number, len). Each other group or animation has the layers it had, without the moved one and those below that; but if it is the group it was moved to, or has that group in it, with them. So its len goes up by one and the len of the moved layer if that is below it now and wasn't before, goes down by as much if it was before and isn't now, and is the same otherwise. However often layers of an animation are moved about in it, whether or not some moves are refused, it has the same layers afterwards, and as many.", "quantifier": "all documents in memory, groups, layers and sequences of moves in which nothing is put in itself (see C95)", "why_tests_cant": "it is about trees of any shape and any number of moves", "anchors": ["sangfroid/layer/group.py:Group.append", "sangfroid/layer/group.py:Group.insert", "sangfroid/layer/layer.py:Layer.__len__", "sangfroid/layer/layer.py:Layer.find_all", "sangfroid/layer/layer.py:Layer._sublayer_tags"]}
{"id": "C175", "title": "Asking whether a layer is in a group", "statement": "For a layer x and a group or animation, \"x in group\" is true exactly if x is one of the layers in it.", "quantifier": "all layers and groups, of any contents and depth", "why_tests_cant": "it is about trees of any shape", "anchors": ["sangfroid/layer/layer.py:Layer.__contains__", "sangfroid/layer/layer.py:Layer.find", "sangfroid/layer/layer.py:Layer.__len__"]}
{"id": "C176", "title": "Moving what has been found", "statement": "A loop over find_all(True) goes through the layers that were there when it began, in the order of the file, whatever is done in it. So \"for x in z.find_all(True): group.append(x)\", for a group or animation that isn't in z, moves every layer that was below z, at any depth: the group has those it had, and after them those of z in the order of the file; z and the groups that were in it have no layers, and all other groups are as they were. The layers of one group moved this way stay in the same order. If the group is z itself, all its layers are then its own children.", "quantifier": "all documents in memory, layers and groups, with any number of layers at any depth", "why_tests_cant": "it is about trees of any shape, which the loop changes while it goes on", "anchors": ["sangfroid/layer/layer.py:Layer.find_all", "sangfroid/layer/group.py:Group.append", "sangfroid/layer/group.py:Group.children"]}
{"id": "C177", "title": "Moving the descendants of a group in a loop", "statement": "\"for x in group.descendants: other.append(x)\", for a group or animation \"other\" that isn't in \"group\", moves every layer that was below \"group\" to \"other\", each layer of \"group\" followed by those below it. \"group\" and the groups that were in it have no layers then, and all other groups are as they were.", "quantifier": "all documents in memory and groups, with any number of layers at any depth", "why_tests_cant": "it is about trees of any shape, which the loop changes while the generators go through them", "anchors": ["sangfroid/layer/group.py:Group.descendants", "sangfroid/layer/group.py:Group._get_children", "sangfroid/layer/group.py:Group.append"]}
{"id": "C178", "title": "The parent and depth of layers that have been moved", "statement": "After a layer has been appended to or inserted in a group, without an exception, its parent is the group and its tag_depth is one more than the group's. If it was put in an animation, its parent is None and its tag_depth is 0. Each layer below it has the parent that it had, and its tag_depth has changed by as much as that of the layer moved. Every other layer has the parent and tag_depth that it had.", "quantifier": "all documents in memory, groups and animations, layers anywhere that do not contain the group, and positions", "why_tests_cant": "it is about trees of any shape and depth, and about all the layers in them that are not touched", "anchors": ["sangfroid/layer/layer.py:Layer.parent", "sangfroid/layer/layer.py:Layer.tag_depth", "sangfroid/layer/group.py:Group.append", "sangfroid/layer/group.py:Group.insert"]}
{"id": "C179", "title": "Inserting the children of a group in another in a loop", "statement": "\"for x in group.children: other.insert(i, x)\", where \"other\" is another group or animation that isn't in a layer of \"group\" and that has a layer at i, moves every layer of \"group\" to that place in \"other\", and no others. They are in reverse order if i isn't negative, and in order if it is. With \"enumerate\" and i + n they are in order. If \"other\" has no layer at i, for example if it is empty, IndexError is raised at the first layer and nothing has been moved.", "quantifier": "all documents in memory, groups and animations with any layers, and indices", "why_tests_cant": "it is about lists of any length, which change while the loop goes through them, and all indices", "anchors": ["sangfroid/layer/group.py:Group.insert", "sangfroid/layer/group.py:Group._get_children"]}
{"id": "C180", "title": "Assigning to a field of many layers in a loop", "statement": "After \"for x in group.children: x.desc = v\", or with active, exclude_from_rendering or version, each of the group's children is as if it alone had been assigned to, and nothing else in the document has changed. The same is so for \"group.find_all(True)\" and for \"group.descendants\", which have all layers below the group. A value is accepted for all layers or for none; if it isn't, the loop raises at the first layer and nothing has changed.", "quantifier": "all documents in memory, groups, values, and layers at any depth", "why_tests_cant": "it is about trees of any shape, and about everything in them that must not change", "anchors": ["sangfroid/layer/layer.py:Layer.desc", "sangfroid/layer/layer.py:Layer.active", "sangfroid/field.py:TagAttrField.__set__", "sangfroid/field.py:DescField.__set__", "sangfroid/layer/group.py:Group._get_children"]}
{"id": "C181", "title": "Assigning to a parameter of many layers in a loop", "statement": "After \"for x in group.children: x[f] = v\", for a group or an animation whose children all take v, each child's f shows the new value, nothing in the children has changed outside parameters of that name, and nothing else in the document has changed. The same is so for \"for x in group.find_all(...): x[f] = v\". If one of the layers hasn't got the parameter or refuses the value, the loop raises there: those before it have the new value, it and those after it are as they were. Layers that aren't among those of the loop aren't changed.", "quantifier": "all documents in memory, groups, parameters, plain Python values, and layers at any depth", "why_tests_cant": "it is about trees of any shape with any number of layers, and about everything in them that must not change", "anchors": ["sangfroid/layer/layer.py:Layer.__setitem__", "sangfroid/layer/layer.py:Layer.__getitem__", "sangfroid/layer/group.py:Group._get_children", "sangfroid/layer/layer.py:Layer.find_all"]}
{"id": "C182", "title": "Changing what has been searched for", "statement": "find_all, with any arguments, finds layers of a document in memory that are the ones it finds in the document as written, in the order of the file, or raises as it would there. A loop over find_all(...) goes through what was found when it began, whatever is done in it: appending what is found to a group outside puts exactly that at the group's end, in order, and takes nothing else from anywhere; assigning to a field of what is found changes exactly that, even if the layers were found by that field. After \"for x in z.find_all(desc=s): x.desc = t\", for another t and with every layer below z of a known type, find_all(desc=s) finds nothing, find_all(desc=t) finds what was called s or t before, in the order of the file, and find_all(desc=u) for any other u finds what it did. After the like loop that turns off what is active, nothing below z is found to be active and all is found not to be; the same is so the other way round, and for exclude_from_rendering. After what find_all(desc=s) found has been moved out of z, find_all(desc=s) finds nothing in z, and what was in z without being in any of it still is.", "quantifier": "all documents in memory, layers searched, arguments of find_all, groups, and descriptions", "why_tests_cant": "it is about trees of any shape and any arguments, and the loop changes the tree that has been searched", "anchors": ["sangfroid/layer/layer.py:Layer.find_all", "sangfroid/layer/group.py:Group.append", "sangfroid/layer/layer.py:Layer.desc"]}
{"id": "C183", "title": "Searching until nothing is found", "statement": "find, with any arguments, finds the first of what find_all finds, or None. The loop \"while (x := z.find(desc=s)) is not None: x.desc = t\", for another t and with every layer below z of a known type, ends, after exactly one search more than there were layers to find, and the document is then as after \"for x in z.find_all(desc=s): x.desc = t\"; so is the like loop that turns off what is active, or on what isn't. The loop that appends what is found to a group outside z ends too, after at most as many searches; then nothing in z is called s, what was neither called s nor in anything called s is still in z, and the group has got only layers called s, after what it had. With t the same as s it goes on for ever if there is anything to find. If a search or a round raises, so does the loop, then and there. Written as \"while x := z.find(desc=s)\" it does the same.", "quantifier": "all documents in memory, layers searched, and descriptions, and any number of rounds", "why_tests_cant": "it is about whether a loop ends, for trees of any shape with any number of layers", "anchors": ["sangfroid/layer/layer.py:Layer.find", "sangfroid/layer/layer.py:Layer.find_all", "sangfroid/layer/layer.py:Layer.__len__", "sangfroid/layer/layer.py:Layer.desc"]}
