.lake/
lake-packages/
build/
*.olean
