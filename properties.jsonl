{"id": "C01", "title": "unlearn undoes learn", "statement": "Calling learn(ws, is_spam) and then unlearn(ws, is_spam) on a classifier returns it to exactly the word counts and message totals it had before, without raising, in unigram and in bigram mode, whatever order the token set is iterated in by the two calls.", "quantifier": "every classifier state whose records are non-negative and not both zero, every wordstream, both classes, both modes, every pair of set-iteration orders", "why_tests_cant": "The claim is about all states and all wordstreams (including ones that share words with earlier training) and about hash-dependent set order, which a test run fixes.", "anchors": ["sbclassifier/classifiers/basic.py:Classifier.learn", "sbclassifier/classifiers/basic.py:Classifier.unlearn", "sbclassifier/classifiers/basic.py:Classifier._add_msg", "sbclassifier/classifiers/basic.py:Classifier._remove_msg"]}
{"id": "C02", "title": "counts mean what they say", "statement": "After any history of learn and unlearn calls in which each unlearn names a message that is currently learned, nspam / nham equal the numbers of currently learned spam / ham messages, and the spamcount / hamcount the classifier holds for a word equals the number of currently learned spam / ham messages containing that word; no call raises.", "quantifier": "every finite history of learn/unlearn calls, every word, every set order", "why_tests_cant": "Unbounded histories; tests check a handful of fixed ones.", "anchors": ["sbclassifier/classifiers/basic.py:Classifier._add_msg", "sbclassifier/classifiers/basic.py:Classifier._remove_msg", "sbclassifier/classifiers/basic.py:WordInfo"]}
{"id": "C03", "title": "training is order independent", "statement": "Two histories that leave the same multiset of (token set, class) messages learned give classifiers with identical totals and word counts, and therefore the same spamprob for every message.", "quantifier": "every pair of well-formed histories with the same remaining messages, every scored message", "why_tests_cant": "Quantifies over all pairs of histories.", "anchors": ["sbclassifier/classifiers/basic.py:Classifier.learn", "sbclassifier/classifiers/basic.py:Classifier.unlearn", "sbclassifier/classifiers/basic.py:Classifier.spamprob"]}
{"id": "C04", "title": "training looks only at the set of tokens", "statement": "In unigram mode, learn and unlearn have the same effect for any two wordstreams with the same set of tokens: repetitions and order within a message are irrelevant, and so is whether the wordstream is a list or a one-shot iterator.", "quantifier": "every state, every pair of wordstreams with the same token set", "why_tests_cant": "All pairs of streams; set iteration order depends on hash seeds.", "anchors": ["sbclassifier/classifiers/basic.py:Classifier._add_msg", "sbclassifier/classifiers/basic.py:Classifier._remove_msg"]}
{"id": "C05", "title": "unlearn guard", "statement": "unlearn raises ValueError exactly when the total of that class is not positive, and then changes no count; in every history of learn/unlearn calls, valid or not, the totals and word counts never become negative.", "quantifier": "every history, including unlearning messages that were never learned", "why_tests_cant": "Misuse histories are unbounded.", "anchors": ["sbclassifier/classifiers/basic.py:Classifier._remove_msg"]}
{"id": "C06", "title": "no dead records", "statement": "No history of learn/unlearn calls, valid or not, leaves the database holding a word whose spamcount and hamcount are both zero; unlearning the last occurrence of a word removes the word.", "quantifier": "every history of learn/unlearn calls, every word", "why_tests_cant": "Unbounded histories.", "anchors": ["sbclassifier/classifiers/basic.py:Classifier._remove_msg", "sbclassifier/classifiers/basic.py:Classifier._wordinfodel"]}
{"id": "C07", "title": "properly trained classifiers can always score", "statement": "If each unlearn named a currently learned message, every word count is at most the corresponding total and spamprob raises no exception on any message. (Not so after an unlearn of something never learned: scoring can then raise.)", "quantifier": "every well-formed history and every message scored afterwards", "why_tests_cant": "The exception needs particular histories; absence for all histories is not testable.", "anchors": ["sbclassifier/classifiers/basic.py:Classifier.probability", "sbclassifier/classifiers/basic.py:Classifier.spamprob"]}
{"id": "C08", "title": "the probability cache is invisible", "statement": "In any history of learn / unlearn / spamprob / probability calls, every value returned by probability or used by spamprob equals the one computed afresh from the current counts and totals, and a call fails with the cache exactly when it fails without it. (load() on an already used stored classifier does not keep this: it can leave stale probabilities.)", "quantifier": "every interleaving of training and scoring calls, every record queried", "why_tests_cant": "Stale-cache bugs need a specific interleaving.", "anchors": ["sbclassifier/classifiers/basic.py:Classifier.probability", "sbclassifier/classifiers/basic.py:Classifier._add_msg", "sbclassifier/classifiers/basic.py:Classifier._remove_msg", "sbclassifier/classifiers/storage.py:PickleClassifier.load", "sbclassifier/classifiers/storage.py:ShelveClassifier.load"]}
{"id": "C09", "title": "scoring does not train", "statement": "spamprob changes neither totals nor the counts of any word, whether it returns or raises.", "quantifier": "every state, message, mode and evidence flag", "why_tests_cant": "All inputs.", "anchors": ["sbclassifier/classifiers/basic.py:Classifier.spamprob", "sbclassifier/classifiers/basic.py:Classifier._getclues"]}
{"id": "C10", "title": "word probability is a probability", "statement": "For a record with non-negative counts within the trained totals and not both zero, probability(record) is Robinson's (s*x + n*p)/(s + n) with s = 0.45, x = 0.5, and lies strictly between 0 and 1 in exact arithmetic; it stays within [0, 1] under any monotone rounding; it raises exactly when a count exceeds the (at least 1) total or both counts are zero.", "quantifier": "all counts and totals; all monotone roundings that fix the small integers", "why_tests_cant": "Infinite domain and rounding behaviours.", "anchors": ["sbclassifier/classifiers/basic.py:Classifier.probability"]}
{"id": "C11", "title": "chi2Q is a survival function", "statement": "chi2Q(x2, v) raises ValueError exactly for odd v; for even v and x2 >= 0 its value is in [0, 1] under any monotone rounding; in exact arithmetic it equals exp(-x2/2) * sum_{i < v/2} (x2/2)^i / i! for v >= 2, is antitone in x2, monotone in v, and is 1 at x2 = 0.", "quantifier": "all x2 >= 0, all v, all monotone roundings", "why_tests_cant": "Infinite numeric domain; the comment in the code records overshoot above 1.0 on some machines.", "anchors": ["sbclassifier/classifiers/basic.py:chi2Q"]}
{"id": "C12", "title": "spamprob is in [0, 1]", "statement": "Whenever spamprob returns, the probability is between 0 and 1 inclusive, whatever was trained, whatever the message, in unigram and bigram mode, and however intermediate results are rounded.", "quantifier": "all states, messages, modes and monotone roundings", "why_tests_cant": "Unbounded numbers of clues and rounding behaviours.", "anchors": ["sbclassifier/classifiers/basic.py:Classifier.spamprob", "sbclassifier/classifiers/basic.py:chi2Q"]}
{"id": "C13", "title": "underflow protection does not change the score", "statement": "The scaled products with frexp exponents give exactly the sums of logarithms: in exact arithmetic spamprob = (S - H + 1)/2 with S = 1 - chi2Q(-2 sum ln(1-p), 2n), H = 1 - chi2Q(-2 sum ln p, 2n), over the clue probabilities p.", "quantifier": "every list of clue probabilities strictly between 0 and 1, of any length", "why_tests_cant": "Rescaling only triggers on long or extreme clue lists.", "anchors": ["sbclassifier/classifiers/basic.py:Classifier.spamprob"]}
{"id": "C14", "title": "score depends only on the token set", "statement": "In unigram mode spamprob returns the same result (or raises the same error) for any two messages with the same set of tokens, whatever the order, repetition or iteration order of the set.", "quantifier": "every state and every pair of messages with equal token sets, every pair of set orders", "why_tests_cant": "Hash order cannot be enumerated by tests.", "anchors": ["sbclassifier/classifiers/basic.py:Classifier._getclues", "sbclassifier/classifiers/basic.py:Classifier.spamprob"]}
{"id": "C15", "title": "no evidence means 0.5; neutral tokens are inert", "statement": "A message without any clue token scores exactly 0.5, and adding tokens the classifier has never seen (or tokens within 0.1 of 0.5) to a message does not change its score.", "quantifier": "every state, message, and set of added neutral tokens", "why_tests_cant": "All states and messages.", "anchors": ["sbclassifier/classifiers/basic.py:Classifier._worddistanceget", "sbclassifier/classifiers/basic.py:Classifier._getclues", "sbclassifier/classifiers/basic.py:Classifier.spamprob"]}
{"id": "C16", "title": "spammier evidence never lowers the score", "statement": "In exact arithmetic, if the clue probabilities of one message are pointwise at least those of another, its score is at least the other's.", "quantifier": "all pairs of pointwise ordered clue lists of any common length", "why_tests_cant": "Infinite numeric domain.", "anchors": ["sbclassifier/classifiers/basic.py:Classifier.spamprob", "sbclassifier/classifiers/basic.py:chi2Q"]}
{"id": "C17", "title": "ham and spam are treated symmetrically", "statement": "Training the mirror image (every spam as ham and vice versa) turns a score x into 1 - x, in unigram mode and exact arithmetic, whenever the message has at most 150 clue tokens; beyond 150 clues ties in strength are broken in favour of spam clues, so the symmetry fails there.", "quantifier": "every pair of mirrored states and every message with at most 150 clues", "why_tests_cant": "Relates two executions over all states.", "anchors": ["sbclassifier/classifiers/basic.py:Classifier.probability", "sbclassifier/classifiers/basic.py:Classifier.spamprob", "sbclassifier/classifiers/basic.py:Classifier._getclues"]}
{"id": "C18", "title": "clue selection", "statement": "The clues used are distinct tokens of the message, at most 150, each at distance at least 0.1 from 0.5; a sufficiently strong token is left out only if 150 clues at least as strong are used; and if at most 150 qualify all of them are used.", "quantifier": "every state and message (unigram mode)", "why_tests_cant": "Needs arbitrarily large messages and tie patterns.", "anchors": ["sbclassifier/classifiers/basic.py:Classifier._getclues"]}
{"id": "C19", "title": "evidence explains the score", "statement": "spamprob(ws, evidence=True) returns the same probability as evidence=False, with an evidence list that starts with *H* and *S*, whose remaining entries are exactly the clues used, in non-decreasing order of probability, and whose S and H give the score as (S - H + 1)/2 when there are clues.", "quantifier": "every state and message", "why_tests_cant": "All states and messages.", "anchors": ["sbclassifier/classifiers/basic.py:Classifier.spamprob"]}
{"id": "C20", "title": "bigram tiling never counts a token twice", "statement": "In bigram mode no position of the message contributes to two of the clues used, every rejected candidate overlaps an accepted clue that is at least as strong, and at most 150 clues are used.", "quantifier": "every state and message in bigram mode", "why_tests_cant": "All messages and strength patterns.", "anchors": ["sbclassifier/classifiers/basic.py:Classifier._getclues"]}
{"id": "C21", "title": "bigram training covers the whole message", "statement": "learn in bigram mode on a list trains on every token and every adjacent pair, as its documentation says (a b c -> a b \"a b\" c \"b c\"). FALSE for the code: the last token is never trained, and a one-token message trains nothing; what is proved is exactly which tokens are trained.", "quantifier": "every list of tokens", "why_tests_cant": "The loss occurs on every message, but the exact trained set must be stated for all lengths.", "anchors": ["sbclassifier/classifiers/basic.py:Classifier._enhance_wordstream", "sbclassifier/classifiers/basic.py:Classifier.learn"]}
{"id": "C22", "title": "lists and iterators train alike", "statement": "learn on a one-shot iterator has the same effect as learn on the list of its items. True in unigram mode; FALSE in bigram mode, where the iterator is consumed from three places; what is proved is the exact set of tokens trained.", "quantifier": "every token sequence", "why_tests_cant": "Interleaved iterator consumption for all lengths.", "anchors": ["sbclassifier/classifiers/basic.py:Classifier._enhance_wordstream"]}
{"id": "C23", "title": "pickle round trip", "statement": "A PickleClassifier that stores its state and another one that is constructed on the same file have the same totals and word counts and give the same score for every message.", "quantifier": "every state, every message", "why_tests_cant": "All states.", "anchors": ["sbclassifier/classifiers/storage.py:PickleClassifier.load", "sbclassifier/classifiers/storage.py:PickleClassifier.store", "sbclassifier/classifiers/basic.py:Classifier.__getstate__", "sbclassifier/classifiers/basic.py:Classifier.__setstate__"]}
{"id": "C24", "title": "store is crash safe", "statement": "If the process dies at any point during store(), the classifier file holds either the complete old or the complete new contents. True when the temporary directory is on the same filesystem (rename); FALSE when it is not, because the move is then a copy.", "quantifier": "every crash point of pickle_write, all old and new contents", "why_tests_cant": "Crash points cannot be scheduled by unit tests.", "anchors": ["sbclassifier/safepickle.py:pickle_write"]}
{"id": "C25", "title": "concurrent stores and loads never tear", "statement": "For any number of concurrent pickle_read and pickle_write calls on one file under any interleaving, each completed read returns the complete initial value or a complete value some write call stored, and when nobody holds the lock the file is complete, as long as the move itself does not fail halfway (a cross-filesystem move that fails, e.g. because the disk is full, leaves a torn file with the lock free).", "quantifier": "every number of processes and every schedule", "why_tests_cant": "Schedules.", "anchors": ["sbclassifier/safepickle.py:pickle_read", "sbclassifier/safepickle.py:pickle_write"]}
{"id": "C26", "title": "an existing database is never silently forgotten", "statement": "Constructing a PickleClassifier on a file holding a stored classifier yields that classifier or raises. FALSE: any failure, including a lock held by another process or an unknown version, silently yields an empty classifier, and the next store overwrites the data; proved: load never raises on read errors and exactly when it starts empty.", "quantifier": "every outcome of reading the file", "why_tests_cant": "Needs lock contention or damaged files.", "anchors": ["sbclassifier/classifiers/storage.py:PickleClassifier.load", "sbclassifier/safepickle.py:pickle_read"]}
{"id": "C27", "title": "a pickled classifier still works", "statement": "Pickling and unpickling a Classifier yields an object with the same counts that supports every operation. FALSE: the bigram flag is not part of the pickled state, so learn, unlearn and spamprob raise AttributeError on the copy; proved: the counts survive.", "quantifier": "every classifier state and wordstream", "why_tests_cant": "All states.", "anchors": ["sbclassifier/classifiers/basic.py:Classifier.__getstate__", "sbclassifier/classifiers/basic.py:Classifier.__setstate__"]}
{"id": "C28", "title": "ShelveClassifier is a Classifier", "statement": "For any history of learn / unlearn / spamprob / store calls on a ShelveClassifier whose tokens avoid the reserved key \"saved state\", every result, error, total and word count is the same as for the in-memory Classifier.", "quantifier": "every history, every message, every set order", "why_tests_cant": "The write-through singleton optimisation, the caches and the pending sets interact over unbounded histories.", "anchors": ["sbclassifier/classifiers/storage.py:ShelveClassifier._wordinfoget", "sbclassifier/classifiers/storage.py:ShelveClassifier._wordinfoset", "sbclassifier/classifiers/storage.py:ShelveClassifier._wordinfodel", "sbclassifier/classifiers/storage.py:ShelveClassifier.store"]}
{"id": "C29", "title": "shelve store and reopen", "statement": "After store(), reopening the database gives a classifier with the same totals and word counts; store() never raises and can be interleaved with training arbitrarily often.", "quantifier": "every history of training, scoring, store and reopen", "why_tests_cant": "Unbounded histories.", "anchors": ["sbclassifier/classifiers/storage.py:ShelveClassifier.store", "sbclassifier/classifiers/storage.py:ShelveClassifier.load"]}
{"id": "C30", "title": "unsaved shelve training", "statement": "If the process stops without store(), reopening gives a usable database: no word is counted in more messages than were trained (more than one, if the first message was only partly written), so every message can be scored. Holds at every crash point of histories without unlearn; FALSE with unlearn, after which scoring can raise because totals are written immediately but word counts are not. Exactly: the file always opens; between two calls it has the totals of all training so far, and for a word what was right when store() was last called or the word was last counted in a single message; during a call each key is as before or as after it; a message can be scored from the file exactly if no token of it is counted more often in a class than messages are (or than once), so always if the unlearns were proper and came before the last store().", "quantifier": "every history and every crash point between two database writes", "why_tests_cant": "Crash points.", "anchors": ["sbclassifier/classifiers/storage.py:ShelveClassifier._post_training", "sbclassifier/classifiers/storage.py:ShelveClassifier._wordinfoset", "sbclassifier/classifiers/storage.py:ShelveClassifier.store"]}
{"id": "C31", "title": "every token can be trained", "statement": "learn accepts any token on a ShelveClassifier. FALSE for the token \"saved state\", which collides with the key of the totals: it is lost the first time and makes learn raise the second time.", "quantifier": "every token", "why_tests_cant": "Needs the one colliding token.", "anchors": ["sbclassifier/classifiers/storage.py:STATE_KEY", "sbclassifier/classifiers/storage.py:ShelveClassifier._wordinfoget"]}
{"id": "C32", "title": "cdb iteration round trip", "statement": "Iterating a constant database made from a list of ASCII key/value strings yields exactly those pairs (as bytes), in order, duplicates included. FALSE for non-ASCII strings, whose lengths are written in characters rather than bytes.", "quantifier": "every list of items fitting in 32-bit offsets", "why_tests_cant": "All lists, all lengths.", "anchors": ["sbclassifier/cdb.py:cdb_make", "sbclassifier/cdb.py:Cdb.__iter__"]}
{"id": "C33", "title": "cdb lookup", "statement": "Looking up a key in a made database returns the value of the first item with that key and raises KeyError for an absent key. With str keys on Python 3 it ALWAYS raises KeyError, because a str never equals the bytes in the file; proved: that, and that the probing itself (with keys compared by content) is correct for all ASCII items.", "quantifier": "every list of items and every key, any hash collisions", "why_tests_cant": "Collision and wrap-around patterns in open addressing.", "anchors": ["sbclassifier/cdb.py:Cdb.findnext", "sbclassifier/cdb.py:cdb_make", "sbclassifier/cdb.py:cdb_hash"]}
{"id": "C34", "title": "CDBClassifier round trip", "statement": "A CDBClassifier stored and loaded again has the same totals and word counts. FALSE: the classifier raises NameError on store, and even with a working cdb module every word comes back with ham and spam counts exchanged (totals are right). Also proved for any file, whatever wrote it: the constructor returns if and only if the file has two numbers for the totals and one or two for each word, and then holds exactly these; otherwise it raises KeyError, ValueError or TypeError.", "quantifier": "every state", "why_tests_cant": "All states; the tests are skipped without the cdb module.", "anchors": ["sbclassifier/classifiers/storage.py:CDBClassifier.load", "sbclassifier/classifiers/storage.py:CDBClassifier.store"]}
{"id": "C35", "title": "a message id is write-once", "statement": "Once a message has a non-empty id, no sequence of set_id / set_id_from_payload calls changes it; a reserved or non-string id is never stored; every rejected call raises and leaves the id alone.", "quantifier": "every sequence of calls with any arguments", "why_tests_cant": "Unbounded call sequences.", "anchors": ["sbclassifier/message.py:Message.set_id", "sbclassifier/message.py:Message.set_id_from_payload", "sbclassifier/message.py:Message.id"]}
{"id": "C36", "title": "classification thresholds", "statement": "set_classification(prob) classifies every float as ham iff prob < 0.2, spam iff prob > 0.9 and unsure otherwise, monotonically in prob; it agrees with the slurping classifier's notion of unsure except exactly at the two cutoffs and for NaN.", "quantifier": "every float", "why_tests_cant": "Boundary values and the whole line.", "anchors": ["sbclassifier/message.py:Message.set_classification", "sbclassifier/classifiers/slurping.py:is_unsure", "sbclassifier/classifiers/constants.py:HAM_CUTOFF", "sbclassifier/classifiers/constants.py:SPAM_CUTOFF"]}
{"id": "C37", "title": "the classification header is trustworthy", "statement": "After add_sb_headers(prob, clues) the message's classification header reads the classification of prob. Holds if the message had no such header (for example after remove_sb_headers); FALSE for a message that arrives with its own, whose value then wins.", "quantifier": "every message and probability", "why_tests_cant": "Adversarial input headers.", "anchors": ["sbclassifier/message.py:Message.add_sb_headers", "sbclassifier/message.py:Message.remove_sb_headers"]}
{"id": "C38", "title": "remove_sb_headers removes exactly the SpamBayes headers", "statement": "After remove_sb_headers no SpamBayes header is left (in any letter case, any multiplicity), and every other header except a notated Subject/To keeps its name, value and position.", "quantifier": "every header list and flag combination", "why_tests_cant": "All header lists.", "anchors": ["sbclassifier/message.py:Message.remove_sb_headers", "sbclassifier/message.py:Message.remove_notations"]}
{"id": "C39", "title": "headers added are removed again", "statement": "add_sb_headers followed by remove_sb_headers restores the original headers of a message without SpamBayes headers. Holds exactly when the message has no SpamBayes headers, each header that gets a notation exists as text without raw bytes, and each that gets none carries no notation of its own (and no raw bytes); FALSE when To or Subject is missing, because the header created for the notation has no trailing comma and stays.", "quantifier": "every message, probability and option combination", "why_tests_cant": "All combinations.", "anchors": ["sbclassifier/message.py:Message.add_sb_headers", "sbclassifier/message.py:Message.add_notations", "sbclassifier/message.py:Message.remove_sb_headers"]}
{"id": "C40", "title": "notation removal flags", "statement": "remove_sb_headers(remove_to_notations=t, remove_subject_notations=s) removes a To notation iff t and a Subject notation iff s. FALSE: the two flags are passed on in the wrong order; proved: the exact effect, and that it is right when the flags are equal.", "quantifier": "every message and flag combination", "why_tests_cant": "Tests only use the defaults.", "anchors": ["sbclassifier/message.py:Message.remove_sb_headers", "sbclassifier/message.py:Message.remove_notations"]}
{"id": "C41", "title": "evidence header", "statement": "The evidence header lists exactly the clues that are *H*, *S* or at least as extreme as the cutoff, in order; undoing the line wrapping gives the entries joined by \"; \".", "quantifier": "every clue list and cutoff", "why_tests_cant": "All clue lists.", "anchors": ["sbclassifier/message.py:Message.add_sb_headers"]}
{"id": "C42", "title": "evidence header lines stay below 78 columns", "statement": "No line of the evidence header exceeds 78 columns unless a single entry is that long. FALSE: separators are not counted; proved: a bound on how much longer a line can get.", "quantifier": "every clue list", "why_tests_cant": "Needs particular entry lengths.", "anchors": ["sbclassifier/message.py:Message.add_sb_headers"]}
{"id": "C43", "title": "force_crlf", "statement": "force_crlf output has every CR followed by LF and every LF preceded by CR, keeps the lines (split at CRLF, CR or LF) unchanged and is idempotent.", "quantifier": "every string", "why_tests_cant": "All strings.", "anchors": ["sbclassifier/message.py:force_crlf"]}
{"id": "C44", "title": "insert_exception_header keeps the message", "statement": "insert_exception_header on a message with a blank line returns text whose body (after the first blank line) is exactly the original body and whose header block is the original one followed by the exception header (and the id header if given). For a message without blank line ending in a newline the added headers FALL INTO the body, and for a message whose header block is empty they do too.", "quantifier": "every message text, traceback text and newline-free id", "why_tests_cant": "All texts.", "anchors": ["sbclassifier/message.py:insert_exception_header"]}
{"id": "C45", "title": "a bounded cache stays bounded", "statement": "A NaiveCache with max_size n never holds more than n entries after any sequence of put/pop calls.", "quantifier": "every n and every call sequence", "why_tests_cant": "Unbounded sequences.", "anchors": ["sbclassifier/corpora/caches.py:NaiveCache.put", "sbclassifier/corpora/caches.py:NaiveCache.pop"]}
{"id": "C46", "title": "cache contents are first-in first-out", "statement": "As long as every put uses a key not in the cache, the cache holds exactly the most recent max_size puts that were not popped, in order of insertion, with the right values; an unbounded cache behaves as a dictionary for every call sequence. FALSE in general: putting a key again can evict that very key or evict early.", "quantifier": "every call sequence", "why_tests_cant": "Unbounded sequences; the failure needs a repeated key.", "anchors": ["sbclassifier/corpora/caches.py:NaiveCache.put", "sbclassifier/corpora/caches.py:NaiveCache.pop", "sbclassifier/corpora/caches.py:NaiveCache.get"]}
{"id": "C47", "title": "corpus respects the cache it is given", "statement": "Corpus(cache) stores its messages in the given cache (so a size bound is respected). FALSE for an empty cache, which is falsy and silently replaced by an unbounded one.", "quantifier": "every cache and every sequence of add/remove calls", "why_tests_cant": "Needs more messages than the bound.", "anchors": ["sbclassifier/corpora/base.py:Corpus.__init__"]}
{"id": "C48", "title": "corpus observers see every change exactly once", "statement": "Each add_message / remove_message with emit_signal=True notifies each observer connected to that corpus exactly once, in call order, with the message, and with emit_signal=False nobody; other corpora's observers are not notified; get returns what was last added under the key and not removed.", "quantifier": "every sequence of calls on any number of corpora", "why_tests_cant": "Unbounded sequences.", "anchors": ["sbclassifier/corpora/base.py:Corpus.add_message", "sbclassifier/corpora/base.py:Corpus.remove_message"]}
{"id": "C49", "title": "messages added to a file corpus are on disk", "statement": "After add_message on a FileCorpus there is a file named by the message id holding the message, until the message is removed. FALSE in two ways: opened on a directory without matching files the corpus never writes anything, and adding more than cache_size messages deletes the oldest files. Proved for corpora that start non-empty and stay within cache_size.", "quantifier": "every directory, filter, cache size and call sequence", "why_tests_cant": "Needs an empty directory, or hundreds of messages.", "anchors": ["sbclassifier/corpora/filesystem.py:FileCorpus.__init__", "sbclassifier/corpora/caches.py:FileCache.put", "sbclassifier/corpora/caches.py:FileCache.pop"]}
{"id": "C50", "title": "length of a file corpus", "statement": "len(corpus) is the number of messages in it. FALSE after any change: the count is taken once at construction; proved: right at construction, constant afterwards.", "quantifier": "every call sequence", "why_tests_cant": "Unbounded sequences.", "anchors": ["sbclassifier/corpora/caches.py:FileCache.__len__", "sbclassifier/corpora/caches.py:FileCache.put", "sbclassifier/corpora/caches.py:FileCache.pop"]}
{"id": "C51", "title": "trainer follows the corpus", "statement": "With a Trainer attached, adding a message trains it and removing it untrains it, so the classifier always reflects the corpus. FALSE: removal trains the message again (both signals are connected to train), and with this package's Message class every notification raises AttributeError; proved: what each event does to the totals and counts.", "quantifier": "every sequence of corpus changes", "why_tests_cant": "Unbounded sequences.", "anchors": ["sbclassifier/trainers.py:Trainer.__init__", "sbclassifier/trainers.py:Trainer.train", "sbclassifier/trainers.py:Trainer.untrain"]}
{"id": "C52", "title": "expiry removes exactly the old messages", "statement": "remove_expired_messages removes exactly the messages older than the expiry age, and does nothing before the next expiry is due. FALSE: on a corpus with any message it raises AttributeError (Message has no creation time) or, for messages that do, TypeError at the first expired one; proved: exact behaviour, including the early return.", "quantifier": "every corpus, clock and age", "why_tests_cant": "Clock dependent; the test is skipped as flaky.", "anchors": ["sbclassifier/corpora/filesystem.py:ExpiryFileCorpus.remove_expired_messages"]}
{"id": "C53", "title": "strippers lose nothing but the marked sections", "statement": "Stripper.analyze terminates for every text when start matches are non-empty, and the returned text is the input with a sequence of disjoint sections removed, each running from a start match to the end of the next end match; an unterminated section is kept; text without start match is unchanged.", "quantifier": "every text and all matchers meeting the documented contract", "why_tests_cant": "All texts and matchers; termination.", "anchors": ["sbclassifier/strippers.py:Stripper.analyze"]}
{"id": "C54", "title": "which words become tokens", "statement": "tokenize_text emits each whitespace-separated word of length 3..12 verbatim, in order, and nothing for shorter words; longer words give one summary token. FALSE for two kinds of bytes words: 13..39 bytes with a dot, and long ones with high-bit bytes, which raise TypeError; proved: exact output and exactly when it raises, for bytes and for str.", "quantifier": "every text", "why_tests_cant": "All texts.", "anchors": ["sbclassifier/tokenizer.py:tokenize_word", "sbclassifier/tokenizer.py:Tokenizer.tokenize_text"]}
{"id": "C55", "title": "every body can be tokenized", "statement": "Tokenizing a decodable text part never raises. FALSE: any numeric character entity, &nbsp;, <p>, <br> or other tag makes it raise TypeError (str replacement on bytes), and so does a line like \"Begin forwarded message:\", which is taken for uuencode; proved: exactly when a body can be tokenized, and its exact tokens.", "quantifier": "every text", "why_tests_cant": "Depends on message content.", "anchors": ["sbclassifier/tokenizer.py:Tokenizer.tokenize_body", "sbclassifier/tokenizer.py:numeric_entity_replacer"]}
{"id": "C56", "title": "header line tokens", "statement": "For each header name (case-sensitive) whose lower-case form is in SAFE_HEADERS, exactly one token header:NAME:COUNT with the number of its lines is emitted, and none for other names; no noheader token is ever produced by default options, nor for absent headers under any options.", "quantifier": "every header list and option setting", "why_tests_cant": "All header lists.", "anchors": ["sbclassifier/tokenizer.py:Tokenizer.tokenize_headers"]}
{"id": "C57", "title": "host and address breakdown", "statement": "breakdown_host yields exactly the suffixes of the name at label boundaries, shortest first, ending with the name itself; breakdown_ipaddr the prefixes; top_two the last two labels.", "quantifier": "every string", "why_tests_cant": "All strings.", "anchors": ["sbclassifier/tokenizer.py:breakdown_host", "sbclassifier/tokenizer.py:breakdown_ipaddr", "sbclassifier/tokenizer.py:top_two"]}
{"id": "C58", "title": "base64 repair terminates and keeps the tail", "statement": "try_to_repair_damaged_base64 always terminates; it treats as base64 exactly the maximal run of initial lines of base64 form up to and including the first padded line, and the rest of the text is kept verbatim (when decoding fails); when decoding succeeds on a non-empty prefix it raises TypeError (bytes + str).", "quantifier": "every text and every decoder outcome", "why_tests_cant": "All texts.", "anchors": ["sbclassifier/tokenizer.py:try_to_repair_damaged_base64"]}
{"id": "C59", "title": "IP clues", "statement": "gen_dotted_quad_clues yields the four enclosing networks of length 8, 16, 24, 32: two IPv4 addresses share the clue of length n iff they agree on the first n bits. The prefix_lengths argument of subnets is ignored.", "quantifier": "every pair of IPv4 addresses and prefix string", "why_tests_cant": "2^64 pairs.", "anchors": ["sbclassifier/iputils.py:gen_dotted_quad_clues", "sbclassifier/iputils.py:subnets"]}
{"id": "C60", "title": "DNS lookups leave the socket timeout alone", "statement": "A timed call restores the process-wide default socket timeout on every exit and turns a timeout into (). Holds for calls that do not overlap; FALSE for overlapping threads, which can leave the timeout changed for good.", "quantifier": "every outcome of the wrapped function; every interleaving of two calls", "why_tests_cant": "Schedules and timeouts.", "anchors": ["sbclassifier/dnsutils.py:timed", "sbclassifier/dnsutils.py:dns_lookup", "sbclassifier/dnsutils.py:reverse_dns_lookup"]}
{"id": "C61", "title": "memoize is transparent", "statement": "For a deterministic function, memoized calls return the same results as direct calls, the function is evaluated at most once per argument tuple for successful calls, and failures are not cached.", "quantifier": "every function and call sequence", "why_tests_cant": "Unbounded sequences.", "anchors": ["sbclassifier/dnsutils.py:memoize"]}
{"id": "C62", "title": "SlurpingClassifier is a usable classifier", "statement": "SlurpingClassifier.learn/unlearn/spamprob behave like Classifier when no URL is to be fetched. FALSE: all three raise TypeError (all() with three arguments; an unknown keyword in the cache set-up) and no training ever happens; proved: they always raise and change no count.", "quantifier": "every history", "why_tests_cant": "Unit tests do not cover the class.", "anchors": ["sbclassifier/classifiers/slurping.py:SlurpingClassifier.spamprob", "sbclassifier/classifiers/slurping.py:SlurpingClassifier.learn", "sbclassifier/classifiers/slurping.py:SlurpingClassifier.setup"]}
{"id": "C63", "title": "copies of a message keep its headers", "statement": "A message that is copied or pickled and restored has the attributes and headers it had before. FALSE: __getstate__ keeps only id, classification and training state; those survive exactly, every header is lost and the copy is unusable as an email.", "quantifier": "every message", "why_tests_cant": "All messages; the defect is in what is not in the state.", "anchors": ["sbclassifier/message.py:Message.__getstate__", "sbclassifier/message.py:Message.__setstate__", "sbclassifier/message.py:Message.__copy__"]}
{"id": "C64", "title": "current_sb_headers is a faithful backup", "statement": "The dictionary returned by current_sb_headers holds, for every SpamBayes header name present, the value of its first occurrence, so that removing all of them and writing the dictionary back restores every SpamBayes header that occurred once.", "quantifier": "every header list", "why_tests_cant": "All header lists.", "anchors": ["sbclassifier/message.py:Message.current_sb_headers", "sbclassifier/message.py:Message.remove_sb_headers"]}
{"id": "C65", "title": "score and level headers", "statement": "With the options on, the score header is the probability with the wanted number of digits, followed by its logarithm (or that of its complement) exactly when asked for and the probability is within 0.005 of an end but not at it; the level header has as many stars as the integer part of ten times the probability, hence between 0 and 10 and never fewer for a higher probability; a NaN or infinite product raises.", "quantifier": "every float and option setting", "why_tests_cant": "All floats.", "anchors": ["sbclassifier/message.py:Message.add_sb_headers"]}
{"id": "C66", "title": "add_sb_headers writes only what it was asked for", "statement": "Every header that the options do not ask for, and every other header of the message, has exactly the entries it had before, in the same order, and so have the id and the training state; this holds also when add_sb_headers raises half way.", "quantifier": "every message, probability, clue list and option setting", "why_tests_cant": "All messages and option combinations.", "anchors": ["sbclassifier/message.py:Message.add_sb_headers", "sbclassifier/message.py:Message.add_notations"]}
{"id": "C67", "title": "a message taken from a corpus can be removed from it", "statement": "remove_message(corpus[key]) removes the message from the corpus. FALSE for file corpora: a message that this corpus object has not added itself is read from its file without an id, and removing it raises TypeError and leaves the file; the messages of values() do carry their names as ids and can be removed.", "quantifier": "every directory and call sequence", "why_tests_cant": "Needs a corpus opened on existing files.", "anchors": ["sbclassifier/corpora/caches.py:FileCache.__getitem__", "sbclassifier/corpora/caches.py:FileCache.values", "sbclassifier/corpora/base.py:Corpus.remove_message", "sbclassifier/message.py:from_path"]}
{"id": "C68", "title": "a file corpus stays in its directory", "statement": "Whatever messages are added or removed, a FileCorpus creates, changes and deletes only entries of its own directory. FALSE for ids with slashes or dots: a message with the id \"../x\" is written beside the directory; proved for proper file names, and for all names that no directory is made or removed.", "quantifier": "every sequence of messages with any ids (ids can come from mail headers)", "why_tests_cant": "Depends on hostile ids; all ids are to be considered.", "anchors": ["sbclassifier/corpora/caches.py:FileCache.put", "sbclassifier/corpora/caches.py:FileCache.pop"]}
{"id": "C69", "title": "a corpus is a consistent mapping", "statement": "For a corpus in memory keys(), values(), len(), in, get and [] always agree, with no duplicate key, and values() lists the messages in the order of keys(). FALSE for items(), which raises AttributeError for every corpus, and for values() of a corpus of files, which raises ValueError when it comes to a file with one of the two names that set_id refuses (such a file is a key of the corpus, can be looked up, and can be made by add_message); proved: everything else, and what values() gives up to that file.", "quantifier": "every reachable state", "why_tests_cant": "All states.", "anchors": ["sbclassifier/corpora/base.py:Corpus.keys", "sbclassifier/corpora/base.py:Corpus.values", "sbclassifier/corpora/base.py:Corpus.items", "sbclassifier/corpora/base.py:Corpus.__contains__"]}
{"id": "C70", "title": "training is all or nothing", "statement": "learn and unlearn either complete or leave the classifier as it was. FALSE when the wordstream raises while it is consumed (tokenizers do): the message total has then been changed and no word count has, so that counts and totals disagree for good; proved: the exact effect, for both calls.", "quantifier": "every classifier state, exception and class", "why_tests_cant": "Needs an exception at the right moment; all states.", "anchors": ["sbclassifier/classifiers/basic.py:Classifier._add_msg", "sbclassifier/classifiers/basic.py:Classifier._remove_msg", "sbclassifier/trainers.py:Trainer.train"]}
{"id": "C71", "title": "NNTP-Posting-Host mining", "statement": "With X_MINE_NNTP_HEADERS on, mine_nntp gives clues for every message. FALSE: it raises TypeError when there is no such header, when the header is an IP address and when the name resolves, and lets look-up failures through; it gives clues only when the look-up of the first header times out. Proved: the exact outcome for every header list and look-up result, and that the socket timeout is always restored.", "quantifier": "every header list and every outcome of the look-up", "why_tests_cant": "Depends on the network; all outcomes.", "anchors": ["sbclassifier/tokenizer.py:mine_nntp", "sbclassifier/tokenizer.py:clues_from_ipaddress", "sbclassifier/tokenizer.py:clues_from_domainname"]}
{"id": "C72", "title": "base_url reduces a URL to its domain", "statement": "base_url of a URL without protocol depends only on the host: hosts of at most two labels are kept, longer ones are cut to their last two labels, or three if the last label has fewer than three characters.", "quantifier": "every URL", "why_tests_cant": "All URLs.", "anchors": ["sbclassifier/classifiers/slurping.py:base_url"]}
{"id": "C73", "title": "stripping is complete", "statement": "After a stripper has run, running it again changes nothing. FALSE: what is left on both sides of a removed comment can form a new one; proved: it holds for URLs (no URL is left), and repeating any stripper at most as often as the text has bytes reaches a text it leaves alone.", "quantifier": "every text", "why_tests_cant": "All texts; counterexamples are adversarial.", "anchors": ["sbclassifier/strippers.py:Stripper.analyze", "sbclassifier/strippers.py:URLStripper", "sbclassifier/strippers.py:CommentStripper"]}
{"id": "C74", "title": "trailing punctuation of URLs", "statement": "Punctuation after a URL in running text does not change the tokens of the URL (the comment in URLStripper.tokenize says so). FALSE: the result of rstrip is discarded; proved: the exact tokens of every URL, and that a trailing . : ? or / adds exactly the token url: while a trailing ! becomes part of the last piece.", "quantifier": "every URL", "why_tests_cant": "All URLs.", "anchors": ["sbclassifier/strippers.py:URLStripper.tokenize"]}
{"id": "C75", "title": "every message can be tokenized", "statement": "tokenize(message) yields its tokens without raising. FALSE: a subject with a word of more than 12 characters (\"Congratulations!\") or an encoded word, raw 8-bit bytes in To, Cc, X-Mailer or Message-Id, and most HTML bodies raise TypeError; proved: exactly which messages can be tokenized.", "quantifier": "every message (as seen through the email package)", "why_tests_cant": "Depends on message content; all messages.", "anchors": ["sbclassifier/tokenizer.py:Tokenizer.__call__", "sbclassifier/tokenizer.py:Tokenizer.tokenize_headers", "sbclassifier/tokenizer.py:Tokenizer.tokenize_body"]}
{"id": "C76", "title": "attachment file names", "statement": "The pieces of the name of an attachment are tokens (\"filename:fname piece:...\"). FALSE: crack_filename raises for every str (bytes pattern), the exception is caught, and the tokens are always the whole name and filename:<bogus>.", "quantifier": "every attachment name", "why_tests_cant": "All names.", "anchors": ["sbclassifier/strippers.py:crack_content_xyz", "sbclassifier/strippers.py:crack_filename"]}
{"id": "C77", "title": "tokens are bytes", "statement": "Whatever the tokenizer produces, tokenize() yields bytes: bytes tokens as they are and str tokens in UTF-8, in order and one for one, so that different str tokens stay different; a token with a lone surrogate raises UnicodeEncodeError after the tokens before it.", "quantifier": "every token stream", "why_tests_cant": "All strings, including surrogates.", "anchors": ["sbclassifier/tokenizer.py:Tokenizer.__call__", "sbclassifier/tokenizer.py:convert_to_bytes"]}
{"id": "C78", "title": "the order of the text parts does not matter", "statement": "textparts() returns a set, so the parts of a message are tokenized in an unspecified order; whether the message can be tokenized and the multiset of its tokens are independent of that order (the sequence is not).", "quantifier": "every message and every order", "why_tests_cant": "Set order of objects depends on addresses.", "anchors": ["sbclassifier/tokenizer.py:Tokenizer.tokenize_body", "sbclassifier/tokenizer.py:textparts"]}
{"id": "C79", "title": "the host of the Message-Id", "statement": "The token is message-id:@HOST if the Message-Id begins with <LOCAL@HOST> after white space, where LOCAL is all up to the first @ and HOST all up to the first > after it; otherwise it is message-id:invalid, also when the header is missing.", "quantifier": "every Message-Id header", "why_tests_cant": "All strings.", "anchors": ["sbclassifier/tokenizer.py:Tokenizer.tokenize_headers", "sbclassifier/tokenizer.py:message_id_re"]}
{"id": "C80", "title": "virus clues", "statement": "The virus: tokens of a text part are exactly its clues (script and iframe tags, src=cid:, height=0 and width=0), from left to right without overlap, each token showing the text of the clue; there is one iff the text has a clue.", "quantifier": "every text", "why_tests_cant": "All texts.", "anchors": ["sbclassifier/tokenizer.py:virus_re", "sbclassifier/tokenizer.py:find_html_virus_clues"]}
{"id": "C81", "title": "subject, address, recipient and mailer tokens", "statement": "The tokens of a plain subject are its words of 3 to 12 characters, in their own case, and its punctuation runs; those of an address header are the lower-case names, the lower-case sides of the @ and the rounded number of addresses without names; the number of recipients is the number of commas plus the number of lines, rounded to a power of two; the header tokens come in a fixed order.", "quantifier": "every header", "why_tests_cant": "All header values.", "anchors": ["sbclassifier/tokenizer.py:Tokenizer.tokenize_headers", "sbclassifier/tokenizer.py:tokenize_word"]}
{"id": "C82", "title": "scoring bytes tokens with bigrams", "statement": "Scoring the tokens of the tokenizer, which are bytes, never raises TypeError, with or without bigrams. FALSE with bigrams: a bigram is a str, and if a str and bytes have the same probability the sort of the clues compares them; after one message has been learned by a new bigram classifier, scoring any message with its first two tokens side by side raises; proved: TypeError exactly if there is such a tie, whatever the sorting algorithm, and no change otherwise.", "quantifier": "every valid history, every message, every comparison sort", "why_tests_cant": "Whether tied items get compared depends on their places and on the algorithm.", "anchors": ["sbclassifier/classifiers/basic.py:Classifier._get_clues", "sbclassifier/classifiers/basic.py:BIGRAM_FORMAT"]}
{"id": "C83", "title": "a ShelveClassifier learns the tokens of the tokenizer", "statement": "A ShelveClassifier learns and scores messages whose tokens are bytes, as the tokenizer yields them. FALSE: a shelf calls key.encode, which bytes do not have; in every state learning, unlearning and scoring such a message raise AttributeError, with the totals already changed; proved also: one bytes token or lone surrogate in a message is enough for an exception, and with str tokens without surrogates the encoded keys are faithful and the outcomes are those of the in-memory classifier.", "quantifier": "every file, every history of calls (failed ones included), every message", "why_tests_cant": "All histories and all texts.", "anchors": ["sbclassifier/classifiers/storage.py:ShelveClassifier._wordinfoget", "sbclassifier/classifiers/storage.py:ShelveClassifier._wordinfoset"]}
{"id": "C84", "title": "what the strippers take out", "statement": "The strippers for comments, styles and noframes return the text without its sections, where a section begins with the first opening marker and ends with the first closing marker after it (markers described as words, without regular expressions), unchanged from an unterminated section on, and yield no tokens; the one for URLs removes every URL, up to the first character that cannot be in one, and yields its protocol and its pieces. Every text has exactly one such result.", "quantifier": "every text", "why_tests_cant": "All texts.", "anchors": ["sbclassifier/strippers.py:Stripper.analyze", "sbclassifier/strippers.py:URLStripper", "sbclassifier/strippers.py:StyleStripper", "sbclassifier/strippers.py:CommentStripper", "sbclassifier/strippers.py:NoframesStripper"]}
{"id": "C85", "title": "tokens of the header lines", "statement": "Called with basic_header_tokenize, the tokenizer turns the words of every header line into tokens LINE:WORD, except for the lines named received, date and x-...; with basic_header_tokenize_only these are the only header tokens. FALSE: Tokenizer.__call__ does not hand its arguments on, so they have no effect; and BASIC_HEADER_SKIP is a single pattern, so that tokenize_headers called directly skips no line of a real message. Proved: the exact tokens and exceptions of tokenize_headers with both arguments.", "quantifier": "every message and all options", "why_tests_cant": "All header lines.", "anchors": ["sbclassifier/tokenizer.py:Tokenizer.__call__", "sbclassifier/tokenizer.py:Tokenizer.tokenize_headers", "sbclassifier/tokenizer.py:BASIC_HEADER_SKIP"]}
{"id": "C86", "title": "the Habeas mark", "statement": "With X_SEARCH_FOR_HABEAS_HEADERS there is a token NAME:valid or NAME:invalid for each header of the mark that is present, in the order 1 to 9, valid iff it has exactly the prescribed text; with X_REDUCE_HABEAS_HEADERS there is one token instead: invalid if some header present has another text, valid if all nine are right, and none otherwise.", "quantifier": "every message", "why_tests_cant": "All combinations of headers and values.", "anchors": ["sbclassifier/tokenizer.py:Tokenizer.tokenize_headers"]}
{"id": "C87", "title": "common beginnings and ends of the recipients", "statement": "With SUMMARIZE_EMAIL_PREFIXES (SUFFIXES) and at least two recipients whose lower-case addresses have a common beginning (end), there is exactly one token, with the number of characters of the longest one times the number of addresses, divided by ten, or \"big\" above 3 (5); otherwise there is none. The order of the recipients does not matter.", "quantifier": "every list of recipients", "why_tests_cant": "All lists of addresses.", "anchors": ["sbclassifier/tokenizer.py:Tokenizer.tokenize_headers"]}
{"id": "C88", "title": "mining the Received headers", "statement": "With MINE_RECEIVED_HEADERS the tokens of a Received header, in lower case and with single spaces, are: each parenthesised sequence of two or more words, left to right; the parts of the first host name after \"from\"; the parts of the first bracketed address. Described by positions and characters, without regular expressions. (\"[1234]\" counts as an address.)", "quantifier": "every Received header", "why_tests_cant": "All header values.", "anchors": ["sbclassifier/tokenizer.py:Tokenizer.tokenize_headers", "sbclassifier/tokenizer.py:received_host_re", "sbclassifier/tokenizer.py:received_ip_re", "sbclassifier/tokenizer.py:received_complaints_re", "sbclassifier/tokenizer.py:breakdown_host", "sbclassifier/tokenizer.py:breakdown_ipaddr"]}
{"id": "C89", "title": "runs of short words", "statement": "With X_SHORT_RUNS, a text with words of less than three characters has a token with the logarithm of the length of the longest run of them. FALSE: a run at the end of the text is not counted (\"V I A G R A\" has none); proved: the exact tokens of every text, with and without GENERATE_LONG_SKIPS, in terms of the longest run that is followed by a longer word.", "quantifier": "every text", "why_tests_cant": "All texts.", "anchors": ["sbclassifier/tokenizer.py:Tokenizer.tokenize_text"]}
{"id": "C90", "title": "options only add tokens", "statement": "Turning on an option never makes a message impossible to tokenize, and only adds tokens. FALSE for the first part: with CRACK_IMAGES no message can be tokenized (ImportError), with REPLACE_NONASCII_CHARS no text part and with X_PICK_APART_URLS no URL (TypeError); X_MINE_NNTP_HEADERS needs its header. Proved: exactly which messages can be tokenized with which options; the tokens with default options are among the tokens, in the same order; the order of the groups of tokens.", "quantifier": "every message and every combination of the options", "why_tests_cant": "Thousands of combinations, all messages.", "anchors": ["sbclassifier/tokenizer.py:Tokenizer.__call__", "sbclassifier/tokenizer.py:Tokenizer.tokenize_headers", "sbclassifier/tokenizer.py:Tokenizer.tokenize_body", "sbclassifier/strippers.py:URLStripper.tokenize"]}
{"id": "C91", "title": "octet streams and images", "statement": "With CHECK_OCTETS the first five undecoded characters of an octet stream are a token; with IMAGE_SIZE there is one token with the logarithm of the size of all images together. FALSE for octet streams: the token shows the decoded bytes as Python prints them (octet:b'MZ...'), so it never is the documented one; proved: the exact tokens of the body, and two octet streams have the same token iff their first five decoded bytes are the same.", "quantifier": "every list of parts", "why_tests_cant": "All contents.", "anchors": ["sbclassifier/tokenizer.py:Tokenizer.tokenize_body", "sbclassifier/tokenizer.py:octetparts", "sbclassifier/tokenizer.py:imageparts"]}
{"id": "C92", "title": "double arithmetic does not spoil the score", "statement": "With IEEE double arithmetic (rounding, underflow, exp and log accurate to one unit in the last place), after training with at most 10^9 ham and 10^9 spam messages: probability(record) is Robinson's value up to a relative error of 1e-13; the score, S and H of spamprob differ from the exact indicator and the exact Fisher combinations of the clue probabilities in the evidence by at most 1e-11; spamprob returns after every valid history. (Not so without a bound: after 2^60 messages it can raise ValueError.)", "quantifier": "every platform as accurate as IEEE doubles, every history, every message, both modes", "why_tests_cant": "The error of a long computation in doubles for all inputs; 2^60 messages cannot be learned in a test.", "anchors": ["sbclassifier/classifiers/basic.py:Classifier.spamprob", "sbclassifier/classifiers/basic.py:Classifier.probability", "sbclassifier/classifiers/basic.py:chi2Q"]}
{"id": "C93", "title": "several processes, one classifier file", "statement": "Messages that were learned and stored stay learned: as long as nobody unlearns, the number of learned messages in the file never goes down. FALSE: PickleClassifier.store writes the whole state of its object, so a process that was opened before another one stored wipes out what that one stored. Proved, for every interleaving and every timeout of the lock: the file holds exactly the training of its history (the calls the storing object was based on), and each object the counts of its own; without overlaps nothing is lost; sessions one after the other end up as one classifier that made all calls in order.", "quantifier": "every interleaving of the calls of any number of processes, with and without timeouts of the lock", "why_tests_cant": "All interleavings.", "anchors": ["sbclassifier/classifiers/storage.py:PickleClassifier.load", "sbclassifier/classifiers/storage.py:PickleClassifier.store"]}
{"id": "C94", "title": "fancy URL recognition", "statement": "With FANCY_URL_RECOGNITION a name like www.python.org or ftp.python.org is a URL, with the tokens it has with its protocol in front. FALSE: asking bytes.startswith for a str raises TypeError, so a text with such a name cannot be tokenized. Proved: exactly which texts raise, and what is taken out of the others and with which tokens, described by positions and characters; when the option changes nothing.", "quantifier": "every text", "why_tests_cant": "All texts.", "anchors": ["sbclassifier/strippers.py:URLStripper.__init__", "sbclassifier/strippers.py:URLStripper.tokenize", "sbclassifier/strippers.py:url_fancy_re"]}
{"id": "C95", "title": "reading damaged constant databases", "statement": "A constant database that was cut short, or whose making was interrupted, is not taken for a whole one: opening or reading it raises. FALSE: a cut inside the key or value of the last record shortens them without a sign, and a database with items but without its header (written last) reads as an empty one. Proved: exactly what reading a file cut after n bytes gives, for every n; which cuts are noticed; that records before the cut are unharmed; that keys(), values() and items() of any file agree; that any file at all raises only ValueError, struct.error or KeyError.", "quantifier": "every list of ASCII items, every cut, every file", "why_tests_cant": "All cuts of all files; tests read whole files.", "anchors": ["sbclassifier/cdb.py:Cdb.__init__", "sbclassifier/cdb.py:Cdb.__iter__", "sbclassifier/cdb.py:Cdb.items", "sbclassifier/cdb.py:Cdb.keys", "sbclassifier/cdb.py:Cdb.values", "sbclassifier/cdb.py:cdb_make"]}
{"id": "C96", "title": "learning moves a message towards its class", "statement": "Learning a message as spam never lowers its own score, and never lowers the probability of its tokens or raises that of any other token (and the same for ham with the directions exchanged). FALSE for its own tokens: the strength given to the unknown word outweighs the evidence when there are more than 11 messages of this class per message of the other; after one ham message \"lunch\" and eleven spam messages without it, learning \"lunch\" as spam lowers its score. Proved: for its own tokens up to this bound, which is sharp, and beyond it for tokens never seen in the other class; for all other tokens without any bound; for the score when the same tokens are clues before and after.", "quantifier": "every history, every message, both modes, real arithmetic", "why_tests_cant": "All histories; it holds in nearly every small example.", "anchors": ["sbclassifier/classifiers/basic.py:Classifier.learn", "sbclassifier/classifiers/basic.py:Classifier.probability", "sbclassifier/classifiers/basic.py:Classifier.spamprob"]}
{"id": "C97", "title": "tokens of one class never change the side", "statement": "A score is above (below) 0.5 exactly if the product of the clue probabilities is above (below) the product of their complements. Hence adding tokens of probability 0.5 or more to a message never takes its score from above 0.5 to 0.5 or less, nor from 0.5 to below, however many clues are pushed out by the limit of 150; the same for tokens of probability 0.5 or less with the sides exchanged. (The score itself can drop when a spam token is added.)", "quantifier": "every history, every pair of messages one of which has all tokens of the other, any iteration order, real arithmetic", "why_tests_cant": "All messages, in particular those with more than 150 clues.", "anchors": ["sbclassifier/classifiers/basic.py:Classifier.spamprob", "sbclassifier/classifiers/basic.py:Classifier._getclues"]}
{"id": "C98", "title": "the name of a bigram stands for its two tokens", "statement": "Different pairs of tokens have different bigrams, and no bigram is equal to a token, so the record of a bigram counts the messages in which its second token directly follows the first. FALSE in general: tokens with a space (\"skip:w 10\", \"a\" and \"skip:w\", \"10 a\"), and bytes against their printed form. Proved: for bytes tokens (even with spaces or quotes) and for str tokens without spaces, the names are different from each other and from all tokens, and the record of a bigram after training on lists has exactly the numbers of spam and ham messages with the pair.", "quantifier": "all tokens, every list of messages", "why_tests_cant": "All pairs of tokens.", "anchors": ["sbclassifier/classifiers/basic.py:BIGRAM_FORMAT", "sbclassifier/classifiers/basic.py:Classifier._enhance_wordstream", "sbclassifier/classifiers/basic.py:Classifier.learn"]}
{"id": "C99", "title": "no text part is left out", "statement": "The tokens of a message are those of its headers and those of the text of every part of type text at any depth of nesting, and of no other part; the type is what stands before the first semicolon of Content-Type, without surrounding whitespace and in lower case, and text/plain if that has not exactly one slash or there is no header (message/rfc822 in a digest). So wrapping a message in others hides no text, nor does a broken type. The same for octet streams and images with their options. (But a message of type multipart without parts, for example without boundary, has no body tokens.)", "quantifier": "every tree of parts, every order in which the set of parts is visited", "why_tests_cant": "All nestings and headers.", "anchors": ["sbclassifier/tokenizer.py:textparts", "sbclassifier/tokenizer.py:octetparts", "sbclassifier/tokenizer.py:imageparts", "sbclassifier/tokenizer.py:Tokenizer.tokenize_body", "sbclassifier/tokenizer.py:Tokenizer.__call__"]}
{"id": "C100", "title": "the text of a message", "statement": "as_string() of a parsed message returns its text: only CR LF as line ends; first the headers in their order and an empty line; then the lines of the body, those beginning with \"From \" quoted exactly if mangle_from_ is set; the text of every part at any depth is contained in it. FALSE in three ways: a text whose Content-Type is message_delivery_status/x (which any sender can write) raises AttributeError; after a CR that stands alone a line beginning with \"From \" is not quoted; and a message with parts attached and no multipart type loses its headers, and mangle_from_=False is ignored for it.", "quantifier": "every message, nesting and pair of arguments", "why_tests_cant": "All messages and content types.", "anchors": ["sbclassifier/message.py:Message.as_string", "sbclassifier/message.py:force_crlf", "sbclassifier/message.py:from_bytes"]}
{"id": "C101", "title": "own headers leave no trace in the tokens", "statement": "The headers that add_sb_headers writes (and remove_sb_headers removes) have no effect on the tokens of the message: a message that has been classified and marked is tokenized as it was before, so training on marked mail trains on the same tokens. This holds for all messages, scores, clues and options, even if add_sb_headers raises an exception half way. It is FALSE if a notation is put into Subject or To, and if COUNT_ALL_HEADER_LINES is set, when names of X-Spambayes headers become tokens.", "quantifier": "every message, score, list of clues, options of both functions, and every behaviour of the email package on header values", "why_tests_cant": "All messages and all options.", "anchors": ["sbclassifier/tokenizer.py:Tokenizer.tokenize_headers", "sbclassifier/tokenizer.py:Tokenizer.__call__", "sbclassifier/message.py:Message.add_sb_headers", "sbclassifier/message.py:Message.remove_sb_headers"]}
{"id": "C102", "title": "training and scoring with messages", "statement": "Working with messages (learn(tokenizer(m)), unlearn(tokenizer(m)), spamprob(tokenizer(m))): after any session the totals and the count of every word are those of the messages now learned, each counting for exactly its tokens; unlearning a message undoes learning it and the score of a message depends only on the messages learned, even if in the meantime the message got SpamBayes headers or its sets of parts are visited in another order, and also for messages that cannot be tokenized. FALSE with bigrams: the order in which the set of text parts is visited decides which words are trained, so unlearning a message with two texts can leave some of its words behind.", "quantifier": "every session, message, order of parts, set order and option without COUNT_ALL_HEADER_LINES", "why_tests_cant": "All sessions; the order of a set of objects changes from run to run.", "anchors": ["sbclassifier/tokenizer.py:Tokenizer.__call__", "sbclassifier/tokenizer.py:textparts", "sbclassifier/classifiers/basic.py:Classifier.learn", "sbclassifier/classifiers/basic.py:Classifier.unlearn", "sbclassifier/classifiers/basic.py:Classifier.spamprob"]}
{"id": "C103", "title": "the tokens of a web page", "statement": "When slurp cannot have the page of a URL it returns one token that says why (url:non_resolving, url:non_html, url:http_N, url:unknown_error). Every later call for this URL gives the same tokens without a use of the network, whatever other URLs were asked for in between. A page that was fetched is kept and gives its tokens. FALSE in two ways: after a HTTP error every later call gives the single characters of the token; and for a page that is fetched the call raises AttributeError (a corpus has no makeMessage) and nothing is kept. Also proved: a page in the cache is shared by URLs that differ only in punctuation, and no token of a page is ever a token of mail, because these are str and those bytes.", "quantifier": "all states of the caches, all URLs, all behaviours of the network at each call, all lists of calls in between", "why_tests_cant": "A test fixes some URLs and a fake network; the claim is about every order of calls and every answer, and about what the second call gives.", "anchors": ["sbclassifier/classifiers/slurping.py:SlurpingClassifier.slurp", "sbclassifier/classifiers/slurping.py:SlurpingClassifier.setup"]}
{"id": "C104", "title": "which headers count, and in which order", "statement": "The tokens of a message depend on its headers only in this way: of Subject, X-Mailer, Message-ID, Content-Type, Content-Disposition and Content-Transfer-Encoding the first value is read; of From, To, Cc, Sender and Reply-To all values (with options also Received, NNTP-Posting-Host and the Habeas headers); of the safe headers only the names count (all names with COUNT_ALL_HEADER_LINES). So a sender cannot change the tokens with any other header, nor with the value of a header that is only counted, nor with a second X-Mailer or Content-Type. The order of headers with different names changes neither whether a message can be tokenized nor its tokens. None of the headers listed is listed in vain.", "quantifier": "every list of headers, option, tree of parts, and every behaviour of the email package on header values", "why_tests_cant": "All names and values of headers, and all orders.", "anchors": ["sbclassifier/tokenizer.py:Tokenizer.tokenize_headers", "sbclassifier/tokenizer.py:Tokenizer.__call__", "sbclassifier/tokenizer.py:SAFE_HEADERS"]}
{"id": "C105", "title": "messages survive a restart", "statement": "A mail client that learns, unlearns and scores messages, keeps its PickleClassifier in a file and is restarted now and then: at any time totals and word counts are exactly those of the messages it has learned, where store() puts them on record and load() or a restart goes back to the record; a message learned before a restart can be unlearned after it, even if it got SpamBayes headers in between; the score of a message depends only on the messages learned, not on when the client stored or was restarted; store() and a restart change no score; without another store() a restart brings back what was stored, whatever happened in between. A store() that runs into the lock changes nothing; a load() or restart that runs into it starts from no messages (C26).", "quantifier": "every sequence of learn, unlearn, score, store, load and restart with or without timeout of the lock, every message, order of parts, set order, option without COUNT_ALL_HEADER_LINES and pickle format that can be read back", "why_tests_cant": "All sessions; the state left behind by a failed load (an old cache of probabilities) shows only in later calls.", "anchors": ["sbclassifier/classifiers/storage.py:PickleClassifier.load", "sbclassifier/classifiers/storage.py:PickleClassifier.store", "sbclassifier/tokenizer.py:Tokenizer.__call__", "sbclassifier/classifiers/basic.py:Classifier.learn", "sbclassifier/classifiers/basic.py:Classifier.unlearn", "sbclassifier/classifiers/basic.py:Classifier.spamprob"]}
{"id": "C106", "title": "unlearning what was never learned", "statement": "Unlearning a message that is not learned raises ValueError and changes nothing. FALSE: it is refused only if no message of the class is left; otherwise the total goes down, and with it tokens of the message that happen to have a count. After learning \"a\" twice and unlearning \"b\" once, a message with \"a\" cannot be scored any more. Proved, for all histories, proper or not: the totals and token counts (the largest surplus of learned over unlearned messages in a final part of the history); which messages can be scored; for one mistake after a proper history, exactly when all messages can still be scored; and that learning the message again repairs the database exactly if all its tokens had a count.", "quantifier": "every history of learn, unlearn and scoring calls, proper or not, with and without bigrams; scores in real arithmetic", "why_tests_cant": "All histories; the damage shows up only when a message with a token of another message is scored.", "anchors": ["sbclassifier/classifiers/basic.py:Classifier.unlearn", "sbclassifier/classifiers/basic.py:Classifier._remove_msg", "sbclassifier/classifiers/basic.py:Classifier._add_msg", "sbclassifier/classifiers/basic.py:Classifier.probability", "sbclassifier/classifiers/basic.py:Classifier.spamprob"]}
{"id": "C107", "title": "what is counted for a plain word", "statement": "After any session of learning, unlearning and scoring messages, the record of a word of 3 to 12 bytes without a colon has exactly the numbers of spam and ham messages now learned of which some text part, at any depth, has the word (in any case, between white space), after URLs, style sheets, comments and noframes sections are taken out; only messages that can be tokenized count. Nothing in a header, in a URL or in another part ever counts for such a word, and a text without \"<\" and URLs has the words that are written in it.", "quantifier": "every session, message, nesting of parts, order of parts, word, and every behaviour of the email package on header values; default options, without bigrams", "why_tests_cant": "All words and messages: a test that some words are counted does not show that no header or URL is mistaken for them.", "anchors": ["sbclassifier/tokenizer.py:Tokenizer.__call__", "sbclassifier/tokenizer.py:Tokenizer.tokenize_body", "sbclassifier/tokenizer.py:Tokenizer.tokenize_headers", "sbclassifier/tokenizer.py:Tokenizer.tokenize_text", "sbclassifier/classifiers/basic.py:Classifier.learn", "sbclassifier/classifiers/basic.py:Classifier.unlearn"]}
{"id": "C108", "title": "a text cannot feign the clues of headers", "statement": "The tokens from:none, to:none, cc:none, sender:none and reply-to:none mean that the message has no such header. FALSE: a text with the word \"from:none\" has this token although there is a From header. Proved: the message has the token exactly if the header is missing or the token, of at most 12 bytes, is a word of a text; so it holds for reply-to:none, and no text can feign any token of more than 12 bytes that does not begin with skip:, url:, proto:, virus: or control:.", "quantifier": "every message that can be tokenized, every nesting of parts, default options", "why_tests_cant": "All headers and texts.", "anchors": ["sbclassifier/tokenizer.py:Tokenizer.tokenize_headers", "sbclassifier/tokenizer.py:Tokenizer.tokenize_text", "sbclassifier/tokenizer.py:Tokenizer.__call__"]}
{"id": "C109", "title": "what no learned message has does not count", "statement": "After any session of learning, unlearning and scoring messages, two messages that have the same tokens among those that some message now learned has get the same score and the same evidence, whatever their other tokens; learned messages can be replaced by others with the same tokens. So a message can be padded with any plain words that no learned message shows, and a message with new tokens only scores exactly 0.5.", "quantifier": "every session, messages, options (except counting all header lines), order of parts and of sets, and any sound arithmetic; without bigrams", "why_tests_cant": "All sessions and all ways of adding and removing words.", "anchors": ["sbclassifier/classifiers/basic.py:Classifier.spamprob", "sbclassifier/classifiers/basic.py:Classifier._getclues", "sbclassifier/classifiers/basic.py:Classifier.probability", "sbclassifier/tokenizer.py:Tokenizer.__call__"]}
{"id": "C110", "title": "learning everything again", "statement": "Learning every message k times instead of once leaves each message on its side of 0.5. FALSE: with nine of ten spam and one of ten ham messages with \"pills\" and another ham message with \"lunch\", the message \"pills lunch\" scores above 0.5, and below 0.5 after everything is learned twice. Proved: the probability of each token, with or without bigrams, moves away from 0.5 or stays and never changes its side, each clue stays a clue, and a message stays on its side if its tokens are all on one side.", "quantifier": "every history that learns the messages, every k, token and message; exact arithmetic", "why_tests_cant": "A statement about all histories and all k.", "anchors": ["sbclassifier/classifiers/basic.py:Classifier.probability", "sbclassifier/classifiers/basic.py:Classifier.spamprob", "sbclassifier/classifiers/basic.py:Classifier.learn"]}
{"id": "C111", "title": "the observers of the documentation", "statement": "A function connected to message_added as the documentation of class Corpus shows prints a line with the message and the corpus for every message added, and adding the message returns. FALSE: a Corpus has no text (NotImplementedError) and a FileCorpus cannot make its own (AttributeError), so nothing is ever printed and every call of add_message or remove_message that is signalled to such a function raises, although the change has been made.", "quantifier": "every history of calls, every way of connecting such functions, corpora of both kinds, every message", "why_tests_cant": "Tests print nothing; the statement is about all histories and connections.", "anchors": ["sbclassifier/corpora/base.py:Corpus.__repr__", "sbclassifier/corpora/base.py:Corpus.add_message", "sbclassifier/corpora/filesystem.py:FileCorpus.__repr__"]}
{"id": "C112", "title": "a trainer trains the messages of its corpora", "statement": "A message added to a corpus is learned by every trainer that was made for the corpus. FALSE: the signals keep weak references, so a trainer trains only while some variable of the program refers to it; `SpamTrainer(classifier, [corpus])` as a statement of its own trains nothing. Exactly: an observer is called if and only if it is connected and some variable refers to it at that moment, and the classifier has learned every message that was added or removed once for each such trainer.", "quantifier": "every program that makes trainers (and other observers), assigns and deletes variables, and adds and removes messages in any order; any number of trainers and corpora in memory", "why_tests_cant": "Tests keep their observers in variables or connect functions of the module; the statement is about all programs.", "anchors": ["sbclassifier/trainers.py:Trainer.__init__", "sbclassifier/corpora/base.py:Corpus.add_message", "sbclassifier/corpora/base.py:Corpus.remove_message"]}
{"id": "C113", "title": "what is known about URLs outlives the process", "statement": "The answer that a URL has given (url:non_resolving and so on) is stored in the cache files after the message, and is given again by every later object that uses these files, without a use of the network, whatever other messages come between. A damaged file means starting afresh, an exception means no more than that this message has no tokens of its URL. TRUE for one process at a time, started anew any number of times. FALSE for two processes: each writes its own view over the files. FALSE for damaged files: only OSError and ValueError start afresh, an empty file (EOFError) stops every message of every new object for ever. FALSE for exceptions: the first one switches the search off for the life of the object.", "quantifier": "all states, all networks at each message, all lock timeouts, all sequences of messages and restarts by any number of processes, all contents of the files", "why_tests_cant": "Needs every order of messages, restarts and timeouts, and every damage of a file.", "anchors": ["sbclassifier/classifiers/slurping.py:SlurpingClassifier._generate_slurp", "sbclassifier/classifiers/slurping.py:SlurpingClassifier.setup", "sbclassifier/classifiers/slurping.py:SlurpingClassifier._save_caches"]}
{"id": "C114", "title": "what a mail filter writes on a message", "statement": "A filter removes the SpamBayes headers of a message, scores it and adds the headers with score and evidence. SpamBayes headers that the message comes with, forged or not, have no effect. What is written is determined by the message and the multiset of messages learned: not by the order of training, messages unlearned again, other messages scored, restarts, earlier filtering, visiting orders of parts and sets. Filtering a second time, or after another filter, changes nothing. The last is FALSE when a notation is wanted in a To or Subject that is missing (or that is not text): what was created for it stays, and the second filter adds another.", "quantifier": "all messages, all options of tokenizer and add_sb_headers, all classifiers, all histories of training and restarts, all orders", "why_tests_cant": "Needs two arbitrary histories and arbitrary headers at once.", "anchors": ["sbclassifier/message.py:Message.remove_sb_headers", "sbclassifier/message.py:Message.add_sb_headers", "sbclassifier/classifiers/basic.py:Classifier.spamprob", "sbclassifier/tokenizer.py:Tokenizer.__call__"]}
{"id": "C115", "title": "the URL to be followed is noted", "statement": "SlurpingURLStripper notes the http URL of a text in slurp_wordstream, for _generate_slurp to follow, and forgets the URL of an earlier text. FALSE: the assignments make local variables, and proto is bytes, so that proto != \"http\" always holds; slurp_wordstream remains None for ever, whatever texts are analyzed. Text and tokens are exactly those of URLStripper.", "quantifier": "all texts, all sequences of texts, all variants of URLStripper", "why_tests_cant": "All texts.", "anchors": ["sbclassifier/classifiers/slurping.py:SlurpingURLStripper.analyze", "sbclassifier/classifiers/slurping.py:SlurpingURLStripper.tokenize"]}
{"id": "C116", "title": "a message that is written can be read again", "statement": "The text that as_string makes of a message, read by from_string, has the same headers with the same names in the same order; every value has the same words in the same order, and a value that fits on its line is the same; the body is the same. FALSE: a value with a vertical tab, a form feed, FS, GS or RS makes as_string raise, or, in versions of Python that do not check headers, every header after it is read as part of the body. Without these characters it holds for all texts, in particular for the headers that add_sb_headers writes: the classification that a reader sees is the one that was decided. In no case does the reader see a header name that was not written (no header can be forged by line breaks in a value).", "quantifier": "all ASCII header values, all numbers and lengths of headers, all bodies the parser makes, both settings of unixfrom and mangle_from_, versions of Python with and without the check of headers", "why_tests_cant": "All values and lengths: where lines are folded depends on the position of every blank, and tests use short headers.", "anchors": ["sbclassifier/message.py:Message.as_string", "sbclassifier/message.py:Message.add_sb_headers", "sbclassifier/message.py:from_string"]}
{"id": "C117", "title": "a reader sees the exception header", "statement": "The email parser, reading the text that insert_exception_header returns for a message with a header block and a body, sees the headers of the message, then X-Spambayes-Exception with the whole traceback (trimmed, a blank before every line but the first), then X-Spambayes-MailId with the id if one is given, and the same body and From line; it sees no other header. FALSE: a traceback with a carriage return that no line feed follows makes it see headers that the traceback makes up. Of what is inserted into a message without a blank line nothing is seen as a header.", "quantifier": "every header block (any number of headers, folded or not, line ends LF or CR LF, with or without From line), body, traceback and one-line id", "why_tests_cant": "All texts: whether the inserted lines are read as headers depends on every line before them.", "anchors": ["sbclassifier/message.py:insert_exception_header", "sbclassifier/message.py:from_string"]}
{"id": "C118", "title": "writing a message does not change its tokens", "statement": "The tokens of a text message are the same after it was written with as_string and read again (with from_string), so that it is scored and can be untrained as before. FALSE: with the default mangle_from_ a body line that begins with \"From \" gets a \">\" (the token \"from\" becomes \">from\"), a subject that is folded gets a token with the line end in it, and so does a \"<script\" that is broken over two lines. Where it holds: headers of one line each, an ASCII body without such a tag and without lone CR, and no line that is quoted.", "quantifier": "every such message, header list, body, way to decode headers (standard library) and setting of unixfrom and mangle_from_", "why_tests_cant": "All texts: URLs, words and line ends may be anywhere in the body.", "anchors": ["sbclassifier/message.py:Message.as_string", "sbclassifier/tokenizer.py:Tokenizer.tokenize_body", "sbclassifier/tokenizer.py:Tokenizer.tokenize_headers"]}
{"id": "C119", "title": "raw 8-bit characters in headers", "statement": "A message with a byte that is not ASCII in one of its headers (read with from_bytes) can be tokenized, trained and scored like any other. FALSE: if the byte is in a To or Cc header, in the first X-Mailer or in the first Message-Id header, the tokenizer raises with every setting of the options; training raises too, but has counted a message without words. In headers that are not read the value makes no difference.", "quantifier": "every message with such a header, every setting of the options, classifier state and way to decode headers (standard library)", "why_tests_cant": "All messages and options; that a total was changed is not seen in the exception.", "anchors": ["sbclassifier/tokenizer.py:Tokenizer.tokenize_headers", "sbclassifier/classifiers/basic.py:Classifier.learn", "sbclassifier/message.py:from_bytes"]}
{"id": "C120", "title": "training with the copy that was delivered", "statement": "A text message is read, classified, given its headers by add_sb_headers and written by as_string. Whoever reads that text (from_string) and trains or scores with it does so with the tokens of the message that came, finds the classification in X-Spambayes-Classification and the same body lines. FALSE in general: with the default mangle_from_ a body line that begins with \"From \" gets another word. Proved for every message of a text type in which this does not happen and no header the tokenizer reads has to be folded, whatever the score, clues, id and the options of add_sb_headers other than notations, and even if add_sb_headers raised.", "quantifier": "every text of a message, score, list of clues, formatting of numbers, setting of the options, Python version (header checks)", "why_tests_cant": "All messages, clues and options; the evidence header is wrapped and folded differently for each list of clues.", "anchors": ["sbclassifier/message.py:Message.add_sb_headers", "sbclassifier/message.py:Message.as_string", "sbclassifier/message.py:from_string", "sbclassifier/tokenizer.py:Tokenizer.__call__"]}
{"id": "C121", "title": "the clues of an address tell it apart", "statement": "Two addresses with the same clues of gen_dotted_quad_clues are the same address. True for IPv4. FALSE for IPv6, which the function accepts and getaddrinfo returns: the lengths 8, 16, 24 and 32 are used for addresses of 128 bits, and the clues are the same if and only if the first 32 bits are; proved with the exact texts. No clue of an IPv4 address is a clue of an IPv6 address.", "quantifier": "every pair of IPv4 or IPv6 addresses and prefix string", "why_tests_cant": "2^256 pairs of addresses; the tests have one IPv4 address.", "anchors": ["sbclassifier/iputils.py:gen_dotted_quad_clues", "sbclassifier/iputils.py:subnets"]}
{"id": "C122", "title": "a message with parts that is written can be read again", "statement": "The text that as_string makes of a message with parts, nested to any depth, read by from_string, gives the same message: the same number of parts in the same order and nesting, each with the headers it had (same names, same words), the same preamble and epilogue, and the text it had but for the line ends (and for the \">\" that mangle_from_ puts before \"From \"). FALSE: a multipart part whose boundary is not found in it gets one more empty line each time the message is written and read. Where it holds: every multipart has parts, none of which contains a line with the boundary, and header lines are continued properly. Whatever was itself read from a text (ASCII, without VT, FF, FS, GS, RS) meets this, whatever its texts contain, if every multipart has parts and no boundary has a colon or is an outer boundary without its last two hyphens.", "quantifier": "every tree of parts of any depth and number, all texts, preambles, epilogues and boundaries, both settings of mangle_from_, versions of Python with and without the check of headers", "why_tests_cant": "Trees of unbounded depth: whether a part is cut in the right place depends on every line of every part and on the boundaries of all messages around it.", "anchors": ["sbclassifier/message.py:Message.as_string", "sbclassifier/message.py:from_string", "sbclassifier/message.py:from_bytes"]}
{"id": "C123", "title": "a message with parts has the same clues after it was written and read", "statement": "Writing a message with parts (as_string) and reading it back (from_string), as is done when it is filtered and delivered and later trained on, does not change its tokens: every part is seen again, with the same type, in the same order, and its text has the same words. FALSE: a line of a part that begins with \"From \" is quoted when mangle_from_ is on, and then \"from\" becomes \">from\". Where it holds: the tree is sound (C122), the headers that the tokenizer reads fit on one line, and the decoded text of each text part is the same or differs in line ends only, with no \"<script\" broken over two lines.", "quantifier": "every tree of parts of any depth and number, every order in which the set of text parts is visited, every decoder of transfer encodings, both settings of mangle_from_", "why_tests_cant": "The text parts are found by walking a tree of unbounded depth and visited in the order of a set; every line of every part can change the tokens.", "anchors": ["sbclassifier/tokenizer.py:Tokenizer.__call__", "sbclassifier/tokenizer.py:Tokenizer.tokenize_body", "sbclassifier/tokenizer.py:textparts", "sbclassifier/message.py:Message.as_string", "sbclassifier/message.py:from_string"]}
{"id": "C124", "title": "a message is cut at its boundary lines and nowhere else", "statement": "A multipart message read by from_string has as its parts the texts between the lines that consist of two hyphens and the boundary (blanks may follow), in their order, each with the headers at its beginning and without the newline before the next boundary line; what comes before the first of these lines and after the line with two more hyphens is in no part, and the tokens do not depend on it. A boundary line directly after another one does not begin a part. If the line with two more hyphens comes first, the message has no parts and what follows is lost. A message that is neither multipart nor a message in a message has everything after its headers as its body. If no empty line follows the headers, the first line that cannot be a header is the first line of the body; a line that begins with \"From \" and is the last of several header lines is so too.", "quantifier": "every message text with any number of header lines, lines before the parts, parts, lines of parts and text after them; every boundary", "why_tests_cant": "The lines of parts can be anything, also lines that almost look like boundaries; tests have a few messages.", "anchors": ["sbclassifier/message.py:from_string", "sbclassifier/message.py:from_bytes", "sbclassifier/tokenizer.py:Tokenizer.__call__", "sbclassifier/tokenizer.py:textparts"]}
{"id": "C125", "title": "a signed message is written with the lines that were read", "statement": "as_string of a multipart/signed message read by from_string gives the lines that were read, so that the signature still fits the part it is for; no header of the signed part is folded, however long it is. The same holds for other multipart messages whose header lines have at most 78 characters.", "quantifier": "every message text with any header lines, parts, lines of parts, and lines before and after them; with and without mangle_from_", "why_tests_cant": "A signature is for every character of a part; whether a character is changed depends on headers and lines that tests do not have.", "anchors": ["sbclassifier/message.py:from_string", "sbclassifier/message.py:Message.as_string"]}
{"id": "C126", "title": "whether lines end with LF or CR LF makes no difference to what is written", "statement": "Two message texts with the same lines, whose lines end with LF or CR LF in any mixture, give the same text when they are read by from_string and written by as_string; also the same exception, if there is one. This holds for messages with parts of any depth, also if boundaries are missing.", "quantifier": "every pair of texts with the same lines; every depth of parts; with and without mangle_from_", "why_tests_cant": "Line ends are found in headers, between headers and body, at boundaries and in texts, and each of them can be either of two; tests use one kind of line end.", "anchors": ["sbclassifier/message.py:from_string", "sbclassifier/message.py:Message.as_string", "sbclassifier/message.py:force_crlf"]}
{"id": "C127", "title": "a text that was written is written again as it is", "statement": "The text made by as_string from a message read by from_string is, when it is read and written again, the same text: programs that hand a message on do not change it any further.", "quantifier": "every message text; with and without mangle_from_", "why_tests_cant": "The second reading starts from folded headers and CR LF line ends, for any headers and parts; tests do not write a message twice.", "anchors": ["sbclassifier/message.py:from_string", "sbclassifier/message.py:Message.as_string"]}
{"id": "C128", "title": "whether lines end with LF or CR LF makes no difference to the clues", "statement": "A message text whose lines end with LF has the same tokens as the text with the same lines of which some or all end with CR LF, when both are read by from_string: a message is scored alike wherever it comes from. This holds for messages with parts of any depth.", "quantifier": "every message text that can be tokenized; every mixture of line ends; every order of the set of text parts; default options", "why_tests_cant": "Line ends are found in headers, at boundaries and in texts, and the tokenizer looks at texts of any number of parts; tests have messages with one kind of line end.", "anchors": ["sbclassifier/message.py:from_string", "sbclassifier/tokenizer.py:Tokenizer.__call__", "sbclassifier/tokenizer.py:textparts", "sbclassifier/tokenizer.py:Tokenizer.tokenize_headers"]}
