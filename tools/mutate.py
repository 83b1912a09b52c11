#!/usr/bin/env python3
"""Mutation runs in a scratch copy of the Lean project.

usage: mutate.py SCRATCH MUTATIONS.json RESULTS.jsonl

SCRATCH is a copy of /verif/lean outside /verif (with its .lake directory). Each mutation has
file, definition, old, new, edit, claim. The edit is made in the scratch copy, the project is built,
and the lemmas with errors and the property files that no longer build are recorded.
"""
import json, os, re, subprocess, sys



def imports(root):
    deps = {}
    for d, _, fs in os.walk(os.path.join(root, "Verif")):
        for f in fs:
            if f.endswith(".lean"):
                p = os.path.relpath(os.path.join(d, f), root)
                m = p[:-5].replace("/", ".")
                deps[m] = re.findall(r"^import (Verif\S*)", open(os.path.join(root, p)).read(), re.M)
    return deps


def name_at(path, line):
    name = None
    for i, l in enumerate(open(path), 1):
        if i > line:
            break
        m = re.match(r"(?:private )?(theorem|lemma|def|example|instance|inductive|structure)\s*([^\s:({\[]*)", l)
        if m:
            name = m.group(2) or m.group(1)
    return name


def main(scratch, muts, out):
    done = set()
    if os.path.exists(out):
        done = {json.loads(l)["id"] for l in open(out)}
    for mu in json.load(open(muts)):
        if mu["id"] in done:
            continue
        path = os.path.join(scratch, mu["file"])
        orig = open(path).read()
        if orig.count(mu["old"]) != 1:
            print("not unique:", mu["id"], orig.count(mu["old"]))
            continue
        open(path, "w").write(orig.replace(mu["old"], mu["new"]))
        r = subprocess.run(["lake", "build", "Verif"], cwd=scratch, capture_output=True, text=True)
        log = r.stdout + r.stderr
        errs = sorted(set((m.group(1), int(m.group(2))) for m in re.finditer(r"error: (Verif/\S+\.lean):(\d+):", log)))
        lemmas = []
        bad = set()
        for f, l in errs:
            bad.add(f[:-5].replace("/", "."))
            n = f[6:-5] + ":" + str(name_at(os.path.join(scratch, f), l))
            if n not in lemmas:
                lemmas.append(n)
        deps = imports(scratch)
        lost = set(bad)
        while True:
            more = {m for m, ds in deps.items() if m not in lost and any(d in lost for d in ds)}
            if not more:
                break
            lost |= more
        rec = dict(id=mu["id"], definition=mu["definition"], edit=mu["edit"], claim=mu["claim"], ok=(r.returncode == 0),
                   failed=lemmas, unbuilt=sorted(m for m in lost if ".Props." in m))
        with open(out, "a") as f:
            f.write(json.dumps(rec) + "\n")
        print(mu["id"], "SURVIVES" if r.returncode == 0 else "caught", lemmas[:4], flush=True)
        open(path, "w").write(orig)


main(*sys.argv[1:])
