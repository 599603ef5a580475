# Formal model of sbclassifier: design

The source in /repo was read as text; nothing of it was built or run.  A few
questions about the standard library (email headers, itertools, shelve) were
settled by reading the CPython library and by small snippets that do not involve
/repo.

## Layout

| where | what |
|---|---|
| `lean/Verif/Py/` | Python run-time notions: exceptions as values, state that survives exceptions, ordered dicts, arbitrary set iteration order |
| `lean/Verif/Model/` | the model, function by function; each definition cites file and lines |
| `lean/Verif/Spec/` | small specifications used in the statements (ledgers, textbook formulas); no model function is used there |
| `lean/Verif/Proof/` | helper lemmas |
| `lean/Verif/Props/` | one theorem (or more) per property, with an `example` beside it showing that its hypotheses are met |
| `tools/props.py` | source of `properties.jsonl` |
| `tools/manifest.py`, `tools/status.py` | write `MANIFEST.json` |
| `tools/axioms.py` | writes `AXIOMS.md`, the axioms of each theorem of the manifest |
| `tools/mutate.py`, `tools/mutlog.py` | apply wrong edits to the model in a scratch copy, find the theorems that fail, log them |
| `seeded/LOG.jsonl` | the wrong programs the theorems were tested against |
| `seeded/instances.txt` | instances of claims evaluated on edited models, see "What the log of edits shows" |

## Modelling decisions

* **Exceptions** are values; the state reached before an exception stays
  (`Py.M`).
* **Set iteration order** (`for w in set(ws)`) is a parameter `SetIter`: any
  duplicate-free list with the same members, a new one at each call.
* **Counts** are unbounded integers, so that "never negative" is a theorem.
* **Floats**: each operation is the exact operation over a linearly ordered
  field followed by a rounding function.  Bounds are proved for every platform
  satisfying `FloatOps.Sound` (monotone idempotent rounding fixing a few
  constants; sign and range facts on exp, log, frexp); exact-value theorems are
  about real numbers with no rounding, and C92 bounds the difference on a platform
  with the accuracy of IEEE doubles (`FloatOps.Double`; `float64` is one).  NaN, infinities and overflow are left
  out.
* **Dynamic dispatch**: `Classifier`'s record methods are a `Backend`
  parameter; the base class and ShelveClassifier instantiate it.
* **Crashes**: a call is a list of atomic effects on durable state; a crash
  keeps a prefix.  **Concurrency**: a transition system over any number of
  processes; a theorem holds for each reachable state.
* **Properties the code violates** are kept with their full statement; the
  negation is proved with a witness, and a theorem named `…_partial` gives what
  does hold.  They have status `partial` in the manifest.

## Trusted base

* Lean 4.33.0's kernel.  No theorem depends on an axiom other than `propext`,
  `Classical.choice` and `Quot.sound`; `AXIOMS.md` lists which theorem depends on
  which.  There is no `sorry`, no `native_decide` and no own axiom.
* The definitions in `lean/Verif/Py` and `lean/Verif/Model` say what the Python
  text does, under the assumptions of the next section; the definitions beside the
  theorems (and in `lean/Verif/Spec`) say what the properties mean.

## What is modelled

The line numbers are those of the pinned source.  "Parameter" means that the
theorems hold for every value of it.  The Python is CPython 3 and its standard
library, of no particular version: what changed between versions and matters here is a
parameter (for example what copying the state of a foreign object raises, `PyObj.other`).

| module | code | left out, or a parameter |
|---|---|---|
| `Model/Classifier`, `Model/Float`, `Model/Exact`, `Model/Double`, `Model/Tokens` | classifiers/basic.py: `chi2Q`, WordInfo, Classifier with scoring, training, clues, bigrams | logging; float arithmetic (see below); words are of one ordered type |
| `Py/Sorting`, `Model/Mixed` | scoring when words are str or bytes, which cannot be compared | the sorting algorithm: any that finds the order by comparing |
| `Model/Client` | sequences of public calls with exceptions caught | |
| `Model/Pickle` | `__getstate__`, `__setstate__`, PickleClassifier (storage.py l.130-177) | the pickle format (`Codec`: only the round trip is used) |
| `Model/SafePickle` | safepickle.py as a transition system with crashes | `lockfile.FileLock` excludes and leaves its file behind when the owner dies; no power failure |
| `Model/Shared` | several `PickleClassifier` objects on one file, interleaved call by call | a read and a write of the file are atomic (C25) |
| `Model/Shelve` | ShelveClassifier (storage.py l.180-329) | pickling in the shelf is faithful; a write reaches the file at once; keys are words |
| `Model/ShelveKeys` | the same with keys encoded as `shelve` does it; C83_keys_faithful relates the two | as above |
| `Model/Cdb` | cdb.py: writer, reader, hash | the memory map is the file's contents |
| `Model/CdbClassifier` | CDBClassifier (storage.py l.584-646) | the name `cdb`, unbound in the code, is a parameter; `int()` on optional sign and digits |
| `Model/Email` | the header list of `email.message.Message`, policy compat32 | folding of header names: ASCII letters; the payload |
| `Model/Message` | message.py: ids, classification headers, notations, encoding | number formatting, `repr`, `log10` and RFC 2047 encoding (`Fmt`) |
| `Model/Generator` | message.py `as_string` (l.269-284) and the parts of `email.generator.Generator` it uses: handlers, order of headers and bodies, quoting of `From ` lines | how a header is folded (see `Model/Fields`), the boundary, the `From ` line (parameters); the re-encoding of payloads with surrogate escapes; parts that are not of class Message |
| `Model/Fields` | what `as_string` and `message_from_string` (message.py l.156, l.162, l.269-284) use of `email.header` and `email.feedparser`: folding an ASCII value to lines of 78 characters (1000000 in the parts of multipart/signed), the checks before a header is written, reading the lines of the headers | values that are not ASCII (parameter `Printer.other`); whether headers are checked for line breaks, which depends on the version of Python (parameter `Printer.verify`); parsing of the body (see `Model/Multipart`); compared with Python 3.11 on 1650 random messages and headers |
| `Model/Multipart` | what `from_string` and `as_string` (message.py l.156, l.162, l.269-284) do with parts: `FeedParser._parsegen` with boundaries, preamble, epilogue, nested messages, and the message as Generator sees it | get_content_type() and get_boundary() are functions of the headers (parameters); message/delivery-status; a `From ` line before the headers of a part is not kept; compared with Python 3.11 on 60000 random texts, and what is written for multipart/signed on 400 |
| `Model/TreeMail` | what `tokenize` (tokenizer.py l.787-809, l.1127-1133) sees of the trees that `from_string` makes: the type, the payload and the parts of each part, and the order in which the set of text parts is visited | default options; the values of headers and `get_payload(decode=True)` are parameters that depend on the headers and the text of the part |
| `Model/Caches` | corpora/caches.py | a file system of directories and files, no symbolic links, no permissions, nobody else changes it |
| `Model/Corpora` | corpora/base.py, corpora/filesystem.py | blinker: receivers alive (but see `Model/Lifetime`), called in any order, an exception stops the rest; observers do not change corpora themselves |
| `Model/CorpusText` | the text of a corpus (base.py l.249-253, filesystem.py l.67-73), the observers of the documentation (base.py l.124-130) | `str(message)` is a parameter |
| `Model/Lifetime` | programs that make, keep and drop observers: the weak references of `connect` (base.py l.124-130, trainers.py l.50-51) | an object is gone as soon as no variable refers to it (CPython); only variables refer to observers |
| `Model/Trainer` | trainers.py, and training on a wordstream that raises | |
| `Model/Net` | iputils.py, dnsutils.py, host and address break-down and NNTP mining of tokenizer.py | IPv4 only (but see `Model/Ipv6`); the outcome of a look-up; reading and setting the socket timeout are atomic; the memoized function does not call itself |
| `Model/Ipv6` | iputils.py for IPv6 addresses, with the texts the ipaddress module gives them | scopes |
| `Model/Slurping` | slurping.py: `is_unsure`, `base_url`, SlurpingClassifier up to the point where its set-up raises | |
| `Model/Fetch` | slurping.py l.266-360: `slurp`, for an object that has its caches (the set-up of C62 raises before making them, so a caller has to) | the network is a parameter of every call; the tokens of a cached page are a parameter |
| `Model/UrlCaches` | slurping.py l.199-264: `_generate_slurp`, the reading of the two cache files in `setup`, `_save_caches`, for any number of processes | l.224-226 taken out and `slurp_wordstream` given (C62 is about what they do); a read or write of a file is one step or a timeout; a file with a pickle of another kind of object is not covered |
| `Model/SlurpStripper` | slurping.py l.131-159: SlurpingURLStripper and the module variable `slurp_wordstream` | |
| `Model/Filter` | a mail filter: message.py `remove_sb_headers`, tokenizer, `spamprob` with evidence, message.py `add_sb_headers`, one after the other on one message | the filter program itself is not in the repository; the classifier's numbers are handed to message.py by a function `float` |
| `Py/Regex`, `Model/Strippers` | strippers.py with default options | the `re` engine: the first of an ordered list of successes; `\s`, `\w`, `\b` on bytes are ASCII |
| `Model/Tokenizer` | class Tokenizer, `tokenize_word`, `convert_to_bytes`, base64 repair, `crack_content_xyz` | options at their defaults except the two about header lines; the email package (`PartView`, `HeaderView`: what its methods return for the message at hand; `getaddresses` does not raise; decoding a payload that is not ASCII gives TypeError in `re.sub`); `str.lower`, `\s`, `\w` on str and the rounding of `log2` (`Str`); the base64 decoder; the order of the set of text parts |
| `Model/Options` | what the options of tokenizer.py and strippers.py switch on; `C90_defaults` relates it to `Model/Tokenizer` | the same; also `msg.items()`, `msg.get`, `getaddresses` and the payloads of octet streams and images (`MoreView`, `Blob`); `int(log2(n))`; FANCY_URL_RECOGNITION is in `Model/Fancy`; left out are the look-ups of X_LOOKUP_IP, which are only reached through X_PICK_APART_URLS after the point where it raises |
| `Model/Fancy` | strippers.py with FANCY_URL_RECOGNITION | as `Model/Strippers`; the option is on when tokenizer.py is imported |
| `Model/Mime` | the tree of parts: `walk`, `get_content_type`, and the selection of parts by tokenizer.py (l.787-809) | how a text is parsed into parts and how a payload is decoded; `str(header)` does not raise (it does not for parsed bytes) |
| `Model/Letter` | which headers tokenizer.py (l.1127-1423) asks for, as lookups in the header list of `Model/Message` | how the email package decodes a value once found (parameter `Lib`); headers with value None count as absent |
| `Model/TextMail` | tokenizer.py `__call__` (l.1127-1133) on a message made by `from_string` (message.py l.160-164) that has no parts | get_payload(decode=True) (parameter `Decoder`; for ASCII bodies without Content-Type and Content-Transfer-Encoding it gives the body) |
| `Model/Restart` | the same client with a PickleClassifier that is stored, loaded and restarted (storage.py l.138-177) | as in `Model/Pickle` |
| `Model/Desk` | a client that learns, unlearns and scores messages: tokenizer.py l.1127-1133 feeding basic.py l.212-321 | |

Not modelled: the commented-out classifiers of storage.py (SQL, ZODB, ZEO), OCR,
the command-line and test code.

## What the code does not do

These claims are made by the documentation or expected by a user, and refuted by a
theorem `C.._claim_false`.  The notes in the manifest say what holds instead.

* **Tokenizer.**  Words of 13 to 39 bytes with a dot, long words with high-bit
  bytes (C54), HTML tags, `&nbsp;`, numeric entities, a line like "Begin forwarded
  message:" (C55), subjects with a word of 13 characters or more and encoded
  subjects, raw 8-bit To, Cc, X-Mailer and Message-Id headers (C75) raise TypeError.
  File names of attachments are always called bogus (C76).  The repair of base64
  raises when it succeeds (C58).  The arguments of `Tokenizer.__call__` are ignored
  (C85), X_SHORT_RUNS does not count a run at the end of a text (C89), and
  REPLACE_NONASCII_CHARS, X_PICK_APART_URLS and CRACK_IMAGES raise (C90).  A word of
  the text such as `from:none` is the same token as the clue for a missing header (C108).
* **Classifier.**  With bigrams, scoring the tokenizer's tokens raises TypeError when
  a token and a bigram have the same probability (C82).  Training with a wordstream
  that raises leaves totals and counts inconsistent (C70), and so does unlearning a
  message that was never learned (C106).  Learning everything twice can turn a
  message from spam to ham (C110).
* **Persistence.**  A ShelveClassifier cannot learn or score the tokenizer's tokens at
  all (C83).
* **Messages.**  A message with a vertical tab, form feed or one of the separators
  FS, GS, RS in a header cannot be written by `as_string`, or loses the headers after
  it when read again (C116).  A CR in a traceback lets insert_exception_header write
  a header of its own, and nothing of it is seen in a message without a body (C117).
  Writing a message and reading it again can change its tokens (C118), so that training
  with the delivered copy is not always training with the message (C120).
  A raw 8-bit byte in To, Cc, X-Mailer or Message-Id keeps a message from being tokenized
  (C119).
* **Persistence, corpora, look-ups**: see the manifest notes of the
  properties with status `partial`.

## What the log of edits shows

Each line of `seeded/LOG.jsonl` is an edit of the model that was built in a scratch copy.
`failed` names declarations whose *proof* no longer compiles. How to read it:

- A proof that fails does not by itself show that its statement is false of the edited
  model: it may only have been written for the old definition.
- Of the 927 edits, 665 list a theorem of a property. For 214 the build was stopped at the
  first failure, a lemma, so that nothing is known about the theorems that depend on it;
  for 6 it was an example. They are weaker evidence.
- As most runs stop at the first failure, `failed` is not the list of all theorems affected.
- 42 edits were not caught when they were made. 32 of them led to theorems that were added
  or tightened (`tightened`); the `note` of the other 10 says why they are harmless.
- 121 of these 214 are edits of `Fields`, `Multipart` and `Generator`. For them the
  instances of C100, C116, C122 and C124 to C127 in `seeded/instances.txt` were evaluated on
  the edited model (it is Lean text, not part of the build; on the model itself all
  instances hold). 105 edits make at least one of them false. For 13 all hold: some are harmless
  (another place for a fold), for the others it is not known whether a claim is false of
  them. 3 could not be applied to the present text. The `note` of each line says which.
- For five of the edits only instances of theorems added afterwards are false. They are
  about headers without an empty line after them, a `From ` line that is put back, and
  double boundary lines after the first part: `C124_missing_line`, `C124_no_headers`,
  `C124_from_last` and `C124_double_any`.
- The other 93 have not been looked at in this way.

## Plan per property

| id | modelled | proof |
|---|---|---|
| C01 | learn / unlearn over the in-memory store, every set order | pointwise effect of the word loops on the lookup function |
| C02 | histories as lists of calls | refinement to a multiset of messages, induction over the history |
| C03 | two histories | corollary of C02 and of score depending only on lookups |
| C04 | two streams | pointwise effect |
| C05, C06 | any history | invariant by induction |
| C07 | history then scoring | C02 invariant implies guards of `probability` |
| C08 | interleaved training and scoring; load | cache-coherence invariant; counterexample for load |
| C09 | spamprob | frame lemma by induction over the clue loop |
| C10 | `probability` | field inequalities with monotone rounding; exact formula |
| C11 | `chi2Q` | induction on the loop; real analysis for antitonicity |
| C12 | `spamprob` | C10, C11 and the product invariant |
| C13 | scaled products | loop invariant `x * 2^e = product` |
| C14, C15, C18 | clue selection | sorting is canonical on distinct words |
| C16 | combination | monotonicity of log, sums, chi2Q |
| C17 | mirrored states | symmetry of `probability`, permutation invariance |
| C19 | evidence list | sorting is a permutation |
| C20 | tiling | induction on the greedy loop |
| C21, C22 | `_enhance_wordstream` on lists and on iterators | exact characterisation, counterexamples |
| C23, C26, C27 | getstate/setstate, load/store over a file with an abstract codec | direct; counterexamples |
| C24 | pickle_write as atomic steps | every prefix; counterexample for copy |
| C25 | processes with lock, chunked reads and writes | inductive invariant of a transition system |
| C28-C31 | ShelveClassifier as Backend; db contents durable | simulation relation with the in-memory classifier; crash invariants; the file key by key (Props/Crash): a call writes a word only if it is then counted once; counterexamples |
| C32, C33 | cdb file bytes | parsing inverts writing; open-addressing invariant |
| C34 | CDBClassifier store/load over an abstract cdb module | direct |
| C35-C44 | Message as id + header list + classification | induction on header lists and strings |
| C45-C50 | caches, corpora, directory as dict of files | invariants over call lists; refinement to dict / FIFO |
| C51, C52 | trainer, expiry | direct |
| C53 | Stripper.analyze with abstract matchers | well-founded recursion, decomposition |
| C54-C58 | tokenizer functions over bytes / str | induction on texts |
| C59-C61 | iputils, dnsutils | direct, transition system for two threads |
| C62 | slurping | direct |
| C63-C66 | Message headers written by `add_sb_headers` | frame lemmas, exact values |
| C67-C70 | file corpora with hostile ids; exceptions while training | invariants, counterexamples |
| C71, C72 | NNTP mining, `base_url` | case analysis |
| C73, C74 | strippers over an ordered-success regex engine | plain-text characterisation of each pattern |
| C82 | words of two kinds; sorts as decision trees | adversary argument: a sort must compare neighbours in the sorted order |
| C83 | the shelf by encoded keys | invariant that remembered words have keys; simulation of Model/Shelve |
| C84 | the same strippers | each pattern is a prefix-free set of words; induction on the rounds |
| C75-C81 | the tokens of a whole message | generators as token list plus exception |
| C85-C91 | the same with options | a relation "yields at least these tokens" that all combinators preserve; patterns as sets of words |
| C92 | `combine` and `freshProbability` on a platform with a relative error per operation and an absolute one for underflow | error propagation: logarithms of the products, derivative of the chi-squared tail, loop invariants with relative and absolute parts |
| C93 | any number of `PickleClassifier` objects and one file; events with or without a timeout of the lock | histories of the objects and of the file, simulation step by step; refuted by a lost update |
| C94 | `fancyRe` with its lookaheads, `fancyTokenize`, `fancyUrls` | scan described by first word starts; uniqueness; refuted by "www.x" |
| C95 | `cdbOpen`, `iterGen`, `items`, `keys`, `values`, `cdbMakeBody` | reading cut records (`cutRead`) as specification; refuted by a cut value and by a missing header |
| C96 | `learn`, `probability`, `spamprob` | Robinson's formula as a function of the counts; monotone up to 11 messages of one class per message of the other; refuted at 12 to 1 |
| C97 | `spamprob`, `_getclues` | side of 0.5 as comparison of products; kept clues of a message and a longer one compared clue by clue |
| C98 | `BIGRAM_FORMAT`, `_enhance_wordstream` | printed bytes are self-delimiting; pairs as adjacent positions (`Adjacent`); refuted by tokens with spaces |
| C99 | `textparts`, `octetparts`, `imageparts`, `walk`, `get_content_type` | parts at any depth as a relation (`PartOf`), types described by the characters of the header (`TypeIs`) |
| C100 | `Message.as_string`, `Generator.flatten`, `_dispatch`, `_handle_*` | induction over the shapes the parser makes (`Parsed`); text described by its lines (`lines`) and by infixes |
| C101 | `Tokenizer.__call__` on a message given by its header list; `add_sb_headers`, `remove_sb_headers` | every lookup by the tokenizer is by a name that is not a SpamBayes name; counted names are filtered by `isSafe`; the headers written are tracked step by step (`OnlyOwn`) |
| C102 | `learn`, `unlearn`, `spamprob` of `tokenizer(message)` | tokens of a message are the same set for all orders of its parts (C99) and all SpamBayes headers (C101); a message that raises acts like one without tokens; invariant `Represents` of C02 |
| C103 | `slurp`, any network at each call | a URL in a cache answers without a change of state; other calls leave what is known of a URL (`Leaves`) |
| C104 | `tokenizer(message)` and the list of headers | each generator reads its headers through `get` / `get_all` (Model/Letter); the last one only counts names (C56) |
| C105 | a client with messages, a file and restarts | ledger of C102, kept twice: for the object and for the file; an old cache after a failed load is harmless because no word is known |
| C106 | `Classifier.unlearn` on messages that are not learned | reflected walk (`Peak`) as specification of the counts; refuted by one unlearn |
| C107 | from the text of messages to the counts of words | C102 and C99 for the way in, C84 for what is left of a text, beginnings of tokens for "nothing else counts" |
| C108 | tokens of headers against words of texts | refuted by a text; exact condition from the beginnings of tokens |
| C109 | sessions with messages, then two scorings | the ledger of C102; unknown words are weak clues and fall out of the selection |
| C110 | histories whose ledgers differ by a factor | ratios do not change, the prior weighs less; refuted by two words with different counts |
| C111 | the text of a corpus and the documented observers | both kinds of corpus raise; the first observer called ends the operation |
| C112 | programs with variables, observers and corpora | a connection is there exactly while a variable refers to its observer; nothing that is gone comes back |
| C113 | processes with the two cache files of slurping.py | files and object agree about the URL (`Agreed`), kept by every message and restart of the one process |
| C114 | filters: remove headers, score, add headers | C38/C39 for the headers, C105 for the score; the former classification does not matter because add_sb_headers sets it first |
| C115 | SlurpingURLStripper on any texts | the assignments are to local variables, and bytes are not equal to a str; hence the class is URLStripper |
| C116 | a message is written and read again: same names, same words, same body | folding as a state machine over pairs of blanks and text; invariants: the words so far, every line but the first begins with a blank and is not empty; then the reader line by line |
| C117 | a reader of the text made by insert_exception_header | the block is read line by line, with the added lines after it (`parseFields_append`); CR LF inside the traceback is folded, a lone CR is not |
| C118 | tokens of a message before and after as_string and from_string | C116 for the headers and body lines; for bodies a relation `MoreCr` between texts that is kept by lower, by the removal of URLs (weight of a prefix), of styles, comments and noframes (their words are `Blind` to it) and by split; virus clues are at aligned places |
| C119 | `tokenizer(message)` for headers with surrogate escapes | `fetch` gives a Header object (Model/Email), on which split, lower and re.match fail; C104 for headers that are not read |
| C120 | read, score, add_sb_headers, as_string, read again, tokens | C101 for the headers added, C116 for writing, C104 for what is seen of headers (`LooksSame` is kept by adding SpamBayes headers and by writing), C118 for bodies; for messages with parts C122 and C123, as other headers that look the same leave the tree of parts alone (`looks_mime`, `looks_sound`) |
| C122 | a tree of parts is written and read again | induction over the tree, with and without the newline that belongs to the next boundary; lines of a text; `segments` cuts at the separators and nowhere else; for trees that were read (`C122_trip_partial`): no line of a part separates the messages around it, and this is kept by cutting line ends, quoting and folding |
| C123 | tokens of a message with parts that was written and read again | `walk` of the two trees related part by part (mutual induction); C122 and C118_line_ends |
| C124 | what the lines of a message are read as | header lines, lines before the parts, parts, lines after them: `takeHeaders`, `preambleOf` and `segments` on each; the depth that is enough (`depth_enough`) by counting lines; the end of the headers without an empty line: `takeHeaders` and `parseFields` by induction over the header lines |
| C125 | what is written line by line | induction over the form of messages (`NeatMail`): header lines are read and folded to themselves (`neat_fold`), lines of texts are quoted or not (`written_lf`), parts are read up to their boundaries (`segments_all`) and put together again (`join_parts`); the newline before a boundary is taken away by reading and given back by writing (`Passes`); with CR LF by C126 (`C125_exact_partial`) |
| C126 | reading and writing texts that differ in line ends | the text without CR (`noCr`, a filter) is read as the message without CR (`Slim`), by induction over the depth; every test on a line (header, blank, boundary) and `splitLines`, `mangleFrom`, `toLf` do not see the CR; results of the generator are related (`RelDoc`) by mutual induction over the tree |
| C127 | read, write, read, write | C125 for the first text, C126 for its CR LF, and C125 again, as quoted lines are in the same form (`neat_again`) |
| C128 | tokens of texts that differ in line ends | the trees are related by `Slim` (C126); `walk` of the two part by part, C118_line_ends for each text; the headers of the message itself (`root_tokens`).  Types that depend on line ends in other messages are replaced by types that never do (`lfTypes`), which agree on this one |
| C121 | IPv6 networks; text injectivity from the items between colons | direct |
